import Verif.Lemmas.DefTypes
import Verif.Props.DefFields

namespace Deluxe
variable [Env]

/-! ## Structures -/

omit [Env] in
theorem takesItem_iff (f : FieldDecl) : f.takesItem ↔ f.positional = true := by
  simp [FieldDecl.takesItem, FieldDecl.positional]

omit [Env] in
theorem defaultsLast_iff (fs : List FieldDecl) : DefaultsLast fs ↔ fs.Pairwise fun f g =>
    f.positional = true → g.positional = true → g.default = none → f.default = none := by
  unfold DefaultsLast
  have h : ∀ f g : FieldDecl, (f.takesItem → g.takesItem → f.default.isSome = true → g.default.isSome = true) ↔
      (f.positional = true → g.positional = true → g.default = none → f.default = none) := by
    intro f g
    rw [takesItem_iff, takesItem_iff]
    cases f.default <;> cases g.default <;> simp
  constructor <;> intro hp <;> refine hp.imp ?_ <;> intro f g
  · exact (h f g).1
  · exact (h f g).2

omit [Env] in
theorem oneContainer_iff (fs : List FieldDecl) : OneContainer fs ↔ fs.countP (·.container.isSome) ≤ 1 := by
  rw [OneContainer, List.countP_eq_length_filter]

omit [Env] in
/-- What is known of the fields does not depend on the defaults of skipped ones. -/
theorem declaredStruct_fields {α : Type} (get : FieldDecl → α) (hg : ∀ f, get (withSkipDefault f) = get f)
    (shape : Shape) (ds : List FieldDecl) (bs : List StructAttr) :
    (declaredStruct shape ds bs).fields.map get = ds.map get := by
  unfold declaredStruct
  dsimp only
  split
  · rfl
  · rw [List.map_map]
    exact List.map_congr_left fun f _ => hg f

omit [Env] in
theorem fieldNames_declared (shape : Shape) (ds : List FieldDecl) (bs : List StructAttr) :
    fieldNames (declaredStruct shape ds bs).fields = fieldNames ds := by
  unfold fieldNames
  rw [List.flatMap_def, List.flatMap_def]
  exact congrArg _ (declaredStruct_fields _ (fun _ => rfl) shape ds bs)

/-- C46, C48: a structure is accepted exactly if its fields and its attributes are, all names and aliases of the
fields are distinct, at most one field is the container and, in a tuple, defaults come last.  It is the structure
that the attributes declare. -/
theorem c46_struct {lib : SynLib} {d : StructIn} {ss : List Stream} {bs : List StructAttr}
    (hm : ListStreams (deluxeAttrs d.attrs) ss) (hi : ItemsAll (StructDefSeg lib) ss bs) (r : StructDecl) :
    d.read lib = .ok r ↔ ∃ ds, d.fields.map (FieldIn.read lib) = ds.map .ok ∧ StructListOk d.shape ds bs ∧
      (fieldNames ds).Nodup ∧ OneContainer r.fields ∧ (d.shape = .unnamed → DefaultsLast r.fields) ∧
      r = declaredStruct d.shape ds bs := by
  constructor
  · intro h
    obtain ⟨ds, -, hf, -⟩ := StructIn.read_ok h
    obtain ⟨h1, h2⟩ := structBody_items (d := d) hf hi
    obtain ⟨ss', hb⟩ := readWith_ok (structBody_length lib d) hm h
    by_cases hok : StructListOk d.shape ds bs
    · rw [h1 hok, Prod.mk.injEq, Errors.intoResult_ok_iff, structDone_nil, structDone_declared] at hb
      obtain ⟨⟨⟨-, a, b, c⟩, e⟩, -⟩ := hb
      refine ⟨ds, hf, hok, ?_, ?_, fun hs => ?_, e.symm⟩
      · rw [← fieldNames_declared d.shape ds bs]; exact a
      · rw [← e, oneContainer_iff]; exact b
      · rw [← e, defaultsLast_iff]; exact c hs
    · exact absurd hb (h2 hok r ss')
  · rintro ⟨ds, hf, hok, a, b, c, rfl⟩
    obtain ⟨h1, -⟩ := structBody_items (d := d) hf hi
    have : (structDone d.shape ds ⟨bs.foldl structApply {}, Errors.new⟩).1.intoResult
        (declaredStruct d.shape ds bs) = .ok (declaredStruct d.shape ds bs) := by
      rw [Errors.intoResult_ok_iff, structDone_nil, structDone_declared]
      refine ⟨⟨rfl, ?_, ?_, fun hs => ?_⟩, rfl⟩
      · rw [← fieldNames_declared d.shape ds bs] at a; exact a
      · rw [oneContainer_iff] at b; exact b
      · exact (defaultsLast_iff _).1 (c hs)
    exact readWith_eq (structBody_length lib d) hm (by rw [h1 hok, this]) (by simp)

/-- C46, C48, whatever the attributes look like: an accepted structure has distinct names, at most one container
and, if it is a tuple, its defaults last. -/
theorem c46_accepted {lib : SynLib} {d : StructIn} {r : StructDecl} (h : d.read lib = .ok r) :
    (fieldNames r.fields).Nodup ∧ OneContainer r.fields ∧ (d.shape = .unnamed → DefaultsLast r.fields) := by
  obtain ⟨ds, acc, -, -, -, h1, rfl⟩ := StructIn.read_ok h
  rw [structDone_nil] at h1
  exact ⟨h1.2.1, (oneContainer_iff _).2 h1.2.2.1, fun hs => (defaultsLast_iff _).2 (h1.2.2.2 hs)⟩

omit [Env] in
theorem names_inj {fs : List FieldDecl} (h : (fieldNames fs).Nodup) {i j : Nat} {f g : FieldDecl} {k : Str}
    (hi : fs[i]? = some f) (hj : fs[j]? = some g) (hf : k ∈ f.idents.map (·.1)) (hg : k ∈ g.idents.map (·.1)) :
    i = j := by
  induction fs generalizing i j with
  | nil => simp at hi
  | cons a fs ih =>
    rw [fieldNames, List.flatMap_cons, List.nodup_append] at h
    obtain ⟨-, h2, h3⟩ := h
    have hin : ∀ {j : Nat} {g : FieldDecl}, fs[j]? = some g → k ∈ g.idents.map (·.1) → k ∈ fieldNames fs :=
      fun hj hg => List.mem_flatMap.2 ⟨_, List.mem_of_getElem? hj, hg⟩
    cases i with
    | zero =>
      cases j with
      | zero => rfl
      | succ j =>
        simp only [List.getElem?_cons_zero, Option.some.injEq, List.getElem?_cons_succ] at hi hj
        subst hi
        exact absurd rfl (h3 k hf k (hin hj hg))
    | succ i =>
      cases j with
      | zero =>
        simp only [List.getElem?_cons_zero, Option.some.injEq, List.getElem?_cons_succ] at hi hj
        subst hj
        exact absurd rfl (h3 k hg k (hin hi hf))
      | succ j =>
        simp only [List.getElem?_cons_succ] at hi hj
        rw [ih h2 hi hj]

/-- C46: so in the code generated for an accepted structure every key belongs to at most one field: a plain field
takes all items whose key is one of its names. -/
theorem c46_one_field {lib : SynLib} {d : StructIn} {r : StructDecl} (h : d.read lib = .ok r) {V : Type}
    (sem : StructSem V) {pre k : Str} {f : Field V} {i : Nat} (hf : (r.toDef sem).fields[i]? = some f)
    (hp : f.Plain) (hk : k ∈ f.idents) :
    Owns (r.toDef sem).fields pre (pre ++ k) f i ∧
      ∀ j g, (r.toDef sem).fields[j]? = some g → k ∈ g.idents → j = i := by
  have hget : ∀ {j : Nat} {g : Field V}, (r.toDef sem).fields[j]? = some g →
      ∃ g', r.fields[j]? = some g' ∧ g.idents = g'.idents.map (·.1) := by
    intro j g hg
    simp only [StructDecl.toDef, List.getElem?_map, List.getElem?_zipIdx, Option.map_eq_some_iff] at hg
    obtain ⟨⟨a, b⟩, ⟨g', h1, h2⟩, rfl⟩ := hg
    cases h2
    exact ⟨_, h1, rfl⟩
  have hone : ∀ j g, (r.toDef sem).fields[j]? = some g → k ∈ g.idents → j = i := by
    intro j g hg hkg
    obtain ⟨f', hf', he⟩ := hget hf
    obtain ⟨g', hg', he'⟩ := hget hg
    exact names_inj (c46_accepted h).1 hg' hf' (he' ▸ hkg) (he ▸ hk)
  exact ⟨⟨k, rfl, hf, hp, hk, fun j g hj hg _ hkg => by have := hone j g hg hkg; omega⟩, hone⟩

/-- C46: a name that was used before, by the same field or another one, is reported where it is used again. -/
theorem c46_reported {lib : SynLib} {d : StructIn} {ss : List Stream} {bs : List StructAttr} {ds : List FieldDecl}
    (hm : ListStreams (deluxeAttrs d.attrs) ss) (hi : ItemsAll (StructDefSeg lib) ss bs)
    (hf : d.fields.map (FieldIn.read lib) = ds.map .ok) (hok : StructListOk d.shape ds bs)
    {pre post : List (Str × Span)} {x : Str} {sp : Span} (hx : ds.flatMap (·.idents) = pre ++ (x, sp) :: post)
    (hd : x ∈ pre.map (·.1)) :
    ∃ e, d.read lib = .err e ∧ ⟨sp, duplicateNameText (txt "field") x⟩ ∈ e.toList := by
  obtain ⟨h1, -⟩ := structBody_items (d := d) hf hi
  have hb := h1 hok
  have hfl : (declaredStruct d.shape ds bs).fields.flatMap (·.idents) = pre ++ (x, sp) :: post := by
    rw [← hx, List.flatMap_def, List.flatMap_def]
    exact congrArg _ (declaredStruct_fields _ (fun _ => rfl) d.shape ds bs)
  have hmem : ⟨sp, duplicateNameText (txt "field") x⟩ ∈
      (structDone d.shape ds ⟨bs.foldl structApply {}, Errors.new⟩).1.toList := by
    have hd' := congrArg StructDecl.fields (structDone_declared d.shape ds bs Errors.new)
    rw [← hd'] at hfl
    unfold structDone at hfl ⊢
    dsimp only at hfl ⊢
    have := structLoops_mem [] false Errors.new hfl (.inl hd)
    split
    · exact (gapLoop_mono _ _ _ _).subset this
    · exact this
  obtain ⟨e, he, hl⟩ := (Errors.intoResult_eq _ (declaredStruct d.shape ds bs)).2 (List.ne_nil_of_mem hmem)
  exact ⟨e, readWith_eq (structBody_length lib d) hm (by rw [hb, he]) (by simp), hl ▸ hmem⟩

/-! ## Variants -/

/-- C48: a variant is accepted exactly if its fields and its attributes are, its name in snake case is an identifier
if that is used, it is not both flattened and named, at most one field is the container and, in a tuple, defaults come
last.  The names of its fields are not compared. -/
theorem c48_variant {lib : SynLib} {v : VariantIn} {ss : List Stream} {bs : List VariantAttr}
    (hm : ListStreams (deluxeAttrs v.attrs) ss) (hi : ItemsAll VariantSeg ss bs) (r : VariantDecl) :
    v.read lib = .ok r ↔ ∃ ds, v.fields.map (FieldIn.read lib) = ds.map .ok ∧ VariantListOk v ds bs ∧
      OwnNameOk lib v bs ∧ VariantCompatible bs ∧ OneContainer r.fields ∧ (v.shape = .unnamed → DefaultsLast r.fields) ∧
      r = declaredVariant lib v ds bs := by
  constructor
  · intro h
    obtain ⟨ds, -, hf, -⟩ := VariantIn.read_ok h
    obtain ⟨h1, h2, h3⟩ := variantBody_items (v := v) hf hi
    obtain ⟨ss', hb⟩ := readWith_ok (variantBody_length lib v) hm h
    by_cases hok : VariantListOk v ds bs
    · by_cases hown : OwnNameOk lib v bs
      · rw [h1 hok hown, Prod.mk.injEq, Errors.intoResult_ok_iff, variantDone_fold hok] at hb
        obtain ⟨⟨⟨a, b, c⟩, e⟩, -⟩ := hb
        refine ⟨ds, hf, hok, hown, a, ?_, fun hs => ?_, e.symm⟩
        · rw [← e, oneContainer_iff]; exact b
        · rw [← e, defaultsLast_iff]; exact c hs
      · rw [h2 hok hown] at hb
        simp at hb
    · exact absurd hb (h3 hok r ss')
  · rintro ⟨ds, hf, hok, hown, a, b, c, rfl⟩
    obtain ⟨h1, -⟩ := variantBody_items (v := v) hf hi
    have : (variantDone lib v ds ⟨bs.foldl variantApply {}, Errors.new⟩).1.intoResult
        (declaredVariant lib v ds bs) = .ok (declaredVariant lib v ds bs) := by
      rw [Errors.intoResult_ok_iff, variantDone_fold hok]
      exact ⟨⟨a, (oneContainer_iff _).1 b, fun hs => (defaultsLast_iff _).1 (c hs)⟩, rfl⟩
    exact readWith_eq (variantBody_length lib v) hm (by rw [h1 hok hown, this]) (by simp)

/-- C67: exactly which variants make the derive panic: those whose name in snake case is needed and is no
identifier. -/
theorem c67_variant {lib : SynLib} {v : VariantIn} {ss : List Stream} {bs : List VariantAttr} {ds : List FieldDecl}
    (hm : ListStreams (deluxeAttrs v.attrs) ss) (hi : ItemsAll VariantSeg ss bs)
    (hf : v.fields.map (FieldIn.read lib) = ds.map .ok) (hok : VariantListOk v ds bs) :
    v.read lib = .panic ↔ ¬ OwnNameOk lib v bs := by
  obtain ⟨h1, h2, -⟩ := variantBody_items (v := v) hf hi
  constructor
  · intro h hown
    have := readWith_eq (variantBody_length lib v) hm (h1 hok hown) (Errors.intoResult_ne_panic _ _)
    rw [VariantIn.read, this] at h
    exact Errors.intoResult_ne_panic _ _ h
  · intro hown
    exact readWith_panic hm (by rw [h2 hok hown])

/-- C48, whatever the attributes look like. -/
theorem c48_accepted {lib : SynLib} {v : VariantIn} {r : VariantDecl} (h : v.read lib = .ok r) :
    OneContainer r.fields ∧ (v.shape = .unnamed → DefaultsLast r.fields) := by
  obtain ⟨ds, acc, -, -, -, h1, rfl⟩ := VariantIn.read_ok h
  rw [variantDone_nil] at h1
  exact ⟨(oneContainer_iff _).2 h1.2.2.2.1, fun hs => (defaultsLast_iff _).2 (h1.2.2.2.2 hs)⟩

/-! ## Enums -/

omit [Env] in
theorem VariantDecl.mem_fieldKey (v : VariantDecl) (ks : List Str) :
    ks ∈ v.fieldKey ↔ ∃ f ∈ v.required, ks = btSet cmpStr (f.idents.map (·.1)) := by
  unfold VariantDecl.fieldKey VariantDecl.required
  rw [mem_btSet (cmpList_eq cmpStr_eq)]
  simp only [List.mem_filterMap, List.mem_filter]
  constructor
  · rintro ⟨f, hf, h⟩
    by_cases hr : (f.default.isSome || f.isFlat || !f.isParsable) = true
    · simp [hr, btSet, btMap] at h
    · simp only [hr, Bool.false_eq_true, if_false, isEmpty_btSet] at h
      simp only [Bool.or_eq_true, Bool.not_eq_true', not_or] at hr
      by_cases he : f.idents = []
      · simp [he] at h
      · have hn : (f.idents.map (·.1)).isEmpty = false := by simpa using he
        simp only [hn, Bool.false_eq_true, if_false, Option.some.injEq] at h
        refine ⟨f, ⟨hf, ?_⟩, h.symm⟩
        simp_all
  · rintro ⟨f, ⟨hf, hr⟩, rfl⟩
    simp only [Bool.and_eq_true, Option.isNone_iff_eq_none, Bool.not_eq_true'] at hr
    obtain ⟨⟨⟨h1, h2⟩, h3⟩, h4⟩ := hr
    refine ⟨f, hf, ?_⟩
    have hn : (f.idents.map (·.1)).isEmpty = false := by simpa using h4
    simp [h1, h2, h3, isEmpty_btSet, hn]

omit [Env] in
theorem VariantDecl.fieldKey_eq (v w : VariantDecl) : v.fieldKey = w.fieldKey ↔ SameRequired v.required w.required := by
  constructor
  · intro h
    have one : ∀ v w : VariantDecl, v.fieldKey = w.fieldKey → ∀ f ∈ v.required, ∃ g ∈ w.required,
        ∀ x, x ∈ f.idents.map (·.1) ↔ x ∈ g.idents.map (·.1) := by
      intro v w h f hf
      obtain ⟨g, hg, hk⟩ := (w.mem_fieldKey _).1 (h ▸ (v.mem_fieldKey _).2 ⟨f, hf, rfl⟩)
      exact ⟨g, hg, btSet_ext.1 hk⟩
    refine ⟨one v w h, fun g hg => ?_⟩
    obtain ⟨f, hf, hx⟩ := one w v h.symm g hg
    exact ⟨f, hf, fun x => (hx x).symm⟩
  · rintro ⟨h1, h2⟩
    refine sorted_ext (cmpList_lawful cmpStr_lawful) (btSet_sorted (cmpList_lawful cmpStr_lawful) _)
      (btSet_sorted (cmpList_lawful cmpStr_lawful) _) fun ks => ?_
    refine (v.mem_fieldKey ks).trans (Iff.trans ?_ (w.mem_fieldKey ks).symm)
    constructor
    · rintro ⟨f, hf, rfl⟩
      obtain ⟨g, hg, hx⟩ := h1 f hf
      exact ⟨g, hg, btSet_ext.2 hx⟩
    · rintro ⟨g, hg, rfl⟩
      obtain ⟨f, hf, hx⟩ := h2 g hg
      exact ⟨f, hf, btSet_ext.2 fun x => (hx x).symm⟩

omit [Env] in
theorem VariantDecl.fieldKey_nil (v : VariantDecl) : v.fieldKey = [] ↔ v.required = [] := by
  constructor
  · intro h
    cases hr : v.required with
    | nil => rfl
    | cons f fs =>
      have := (v.mem_fieldKey _).2 ⟨f, by rw [hr]; exact List.mem_cons_self, rfl⟩
      rw [h] at this; simp at this
  · intro h
    cases hk : v.fieldKey with
    | nil => rfl
    | cons k ks =>
      obtain ⟨f, hf, -⟩ := (v.mem_fieldKey k).1 (by rw [hk]; exact List.mem_cons_self)
      rw [h] at hf; simp at hf

omit [Env] in
theorem VariantDecl.fieldKey_single (v : VariantDecl) (names : List Str) : v.fieldKey = [btSet cmpStr names] ↔
    v.required ≠ [] ∧ ∀ f ∈ v.required, ∀ x, x ∈ f.idents.map (·.1) ↔ x ∈ names := by
  constructor
  · intro h
    refine ⟨fun hr => ?_, fun f hf => ?_⟩
    · rw [v.fieldKey_nil.2 hr] at h; simp at h
    · have := (v.mem_fieldKey _).2 ⟨f, hf, rfl⟩
      rw [h, List.mem_singleton] at this
      exact btSet_ext.1 this
  · rintro ⟨h1, h2⟩
    refine sorted_ext (cmpList_lawful cmpStr_lawful) (btSet_sorted (cmpList_lawful cmpStr_lawful) _)
      (List.pairwise_singleton _ _) fun ks => ?_
    refine (v.mem_fieldKey ks).trans (Iff.trans ?_ List.mem_singleton.symm)
    constructor
    · rintro ⟨f, hf, rfl⟩
      exact btSet_ext.2 (h2 f hf)
    · rintro rfl
      obtain ⟨f, hf⟩ := List.exists_mem_of_ne_nil _ h1
      exact ⟨f, hf, btSet_ext.2 fun x => (h2 f hf x).symm⟩

omit [Env] in
theorem VariantDecl.hasContainer_iff (v : VariantDecl) (c : ContainerD) : v.HasContainer c ↔ v.container = some c := by
  unfold VariantDecl.HasContainer VariantDecl.container
  have : ∀ fs : List FieldDecl, (fs.filterMap (·.container)).find? (·.value) =
      fs.findSome? fun f => f.container.bind fun c => if c.value then some c else none := by
    intro fs
    induction fs with
    | nil => rfl
    | cons f fs ih =>
      rw [List.filterMap_cons, List.findSome?_cons]
      cases hc : f.container with
      | none => simpa using ih
      | some c =>
        rw [List.find?_cons]
        cases hv : c.value <;> simp [hv, ih]
  rw [this]

omit [Env] in
theorem byNameNames_eq (vs : List VariantDecl) : byNameNames vs = variantNames vs := by
  unfold byNameNames variantNames
  induction vs with
  | nil => rfl
  | cons v vs ih =>
    rw [List.flatMap_cons, List.filter_cons, ih]
    cases v.isFlatten <;> simp

omit [Env] in
theorem variantsOk_iff (vs : List VariantDecl) (b : Bool) : VariantsOk vs b ↔ EnumChecked vs b := by
  have hc : ∀ v w : VariantDecl, (∀ b c, v.HasContainer b → w.HasContainer c → c.lifetime = none ∧ c.ty = none) ↔
      (v.container.isSome = true → ∀ c, w.container = some c → c.lifetime = none ∧ c.ty = none) := by
    intro v w
    simp only [VariantDecl.hasContainer_iff, Option.isSome_iff_exists]
    exact ⟨fun h ⟨b, hb⟩ c hc => h b c hb hc, fun h b c hb hc => h ⟨b, hb⟩ c hc⟩
  constructor
  · intro h
    refine ⟨?_, h.container.imp fun {v w} => (hc v w).1, h.flatNamed, h.flatKeys.imp fun {v w} hk a b he => ?_,
      fun v hv a w hw b he => ?_, fun hd v hv a he => ?_⟩
    · rw [byNameNames_eq]; exact h.names
    · exact hk a b ((VariantDecl.fieldKey_eq v w).1 he)
    · exact h.flatNames v hv a w hw b ((v.fieldKey_single _).1 he)
    · exact h.default hd v hv a (v.fieldKey_nil.1 he)
  · intro h
    refine ⟨?_, h.container.imp fun {v w} => (hc v w).2, h.flatNamed, h.flatKeys.imp fun {v w} hk a b he => ?_,
      fun v hv a w hw b he => ?_, fun hd v hv a he => ?_⟩
    · rw [← byNameNames_eq]; exact h.names
    · exact hk a b ((VariantDecl.fieldKey_eq v w).2 he)
    · exact h.flatNames v hv a w hw b ((v.fieldKey_single _).2 he)
    · exact h.default hd v hv a (v.fieldKey_nil.2 he)

/-- C68: an enum is accepted exactly if its variants and its attributes are, and the variants fit together. -/
theorem c68_enum {lib : SynLib} {d : EnumIn} {ss : List Stream} {bs : List EnumAttr}
    (hm : ListStreams (deluxeAttrs d.attrs) ss) (hi : ItemsAll (EnumDefSeg lib) ss bs) (r : EnumDecl) :
    d.read lib = .ok r ↔ ∃ vs, d.variants.map (VariantIn.read lib) = vs.map .ok ∧ EnumListOk bs ∧
      VariantsOk vs r.default.isSome ∧ r = declaredEnum vs bs := by
  have hdef : ∀ vs : List VariantDecl, ((bs.foldl enumApply {}).default).isSome =
      (declaredEnum vs bs).default.isSome := by
    intro vs
    obtain ⟨-, h, -⟩ := enumFold bs
    rw [h]
    show _ = (bs.findSome? EnumAttr.default?).isSome
    cases bs.findSome? EnumAttr.default? <;> rfl
  constructor
  · intro h
    obtain ⟨hf, -⟩ := EnumIn.read_ok h
    obtain ⟨h1, h2⟩ := enumBody_items (d := d) hf hi
    obtain ⟨ss', hb⟩ := readWith_ok (enumBody_length lib d) hm h
    by_cases hok : EnumListOk bs
    · rw [h1 hok, Prod.mk.injEq, Errors.intoResult_ok_iff, enumDone_nil] at hb
      obtain ⟨⟨⟨-, a⟩, e⟩, -⟩ := hb
      refine ⟨_, hf, hok, ?_, e.symm⟩
      rw [hdef r.variants, e, ← variantsOk_iff] at a
      exact a
    · exact absurd hb (h2 hok r ss')
  · rintro ⟨vs, hf, hok, a, rfl⟩
    obtain ⟨h1, -⟩ := enumBody_items (d := d) hf hi
    have : (enumDone vs (bs.foldl enumApply {}) Errors.new).1.intoResult (declaredEnum vs bs) =
        .ok (declaredEnum vs bs) := by
      rw [Errors.intoResult_ok_iff, enumDone_nil, hdef vs, ← variantsOk_iff]
      exact ⟨⟨rfl, a⟩, rfl⟩
    exact readWith_eq (enumBody_length lib d) hm (by rw [h1 hok, this]) (by simp)

/-- C68, whatever the attributes look like: the variants of an accepted enum fit together. -/
theorem c68_accepted {lib : SynLib} {d : EnumIn} {r : EnumDecl} (h : d.read lib = .ok r) :
    VariantsOk r.variants r.default.isSome :=
  (variantsOk_iff _ _).2 (EnumIn.read_ok h).2

/-! ## What the generated code relies on -/

/-- C46: what no accepted tuple field has. -/
theorem tupleField_accepted {lib : SynLib} {f : FieldIn} {d : FieldDecl} (h : f.read lib = .ok d)
    (hi : f.ident = none) : d.idents = [] ∧ d.append = none ∧ d.rest = none := by
  obtain ⟨acc, h1, -, -, rfl⟩ := FieldIn.read_ok h
  obtain ⟨a, b, c⟩ := h1.tuple hi
  refine ⟨?_, ?_, ?_⟩
  · simp only [fieldDone, hi, a]; split <;> rfl
  · simp only [fieldDone, b]; rfl
  · simp only [fieldDone, c]; rfl

omit [Env] in
theorem mem_toDef {V : Type} {fs : List FieldDecl} {sem : Nat → FieldSem V} {f : Field V}
    (h : f ∈ fs.zipIdx.map fun x => x.1.toField (sem x.2)) : ∃ g i, g ∈ fs ∧ f = g.toField (sem i) := by
  obtain ⟨⟨g, i⟩, hg, rfl⟩ := List.mem_map.1 h
  exact ⟨g, i, List.fst_mem_of_mem_zipIdx hg, rfl⟩

namespace FieldDecl
variable {V : Type} (sem : FieldSem V) (f : FieldDecl)
omit [Env] in
theorem toField_isFlatten : (f.toField sem).isFlatten = f.isFlatten := by
  simp only [Field.isFlatten, toField, isFlatten, Option.map_map]; rfl
omit [Env] in
theorem toField_isFlat : (f.toField sem).isFlat = f.isFlat := by
  unfold Field.isFlat isFlat
  rw [toField_isFlatten]; rfl
omit [Env] in
theorem toField_isContainer : (f.toField sem).isContainer = f.isContainer := rfl
omit [Env] in
theorem toField_isParsable : (f.toField sem).isParsable = f.isParsable := rfl
end FieldDecl

omit [Env] in
theorem countP_toDef {V : Type} (fs : List FieldDecl) (sem : Nat → FieldSem V) (p : Field V → Bool)
    (q : FieldDecl → Bool) (hp : ∀ f s, p (f.toField s) = q f) :
    (fs.zipIdx.map fun x => x.1.toField (sem x.2)).countP p = fs.countP q := by
  rw [List.countP_map]
  have : ∀ k, (fs.zipIdx k).countP (p ∘ fun x => x.1.toField (sem x.2)) = fs.countP q := by
    induction fs with
    | nil => intro k; rfl
    | cons f fs ih =>
      intro k
      rw [List.zipIdx_cons, List.countP_cons, List.countP_cons, ih]
      simp [hp]
  exact this 0

/-- The shape of a definition as syn gives it: the fields of a tuple have no names. -/
def ShapeFits (shape : Shape) (fields : List FieldIn) : Prop := shape = .unnamed → ∀ f ∈ fields, f.ident = none

theorem noAppendRest_of {lib : SynLib} {shape : Shape} {fields : List FieldIn} {ds : List FieldDecl}
    (hw : ShapeFits shape fields) (hf : fields.map (FieldIn.read lib) = ds.map .ok) (hs : shape = .unnamed) :
    ∀ g ∈ ds, g.append = none ∧ g.rest = none := by
  intro g hg
  have : (Res.ok g : Res FieldDecl) ∈ fields.map (FieldIn.read lib) := by rw [hf]; exact List.mem_map_of_mem hg
  obtain ⟨f, hf, he⟩ := List.mem_map.1 this
  exact (tupleField_accepted he (hw hs f hf)).2

omit [Env] in
theorem skipDefault_filled (f : FieldDecl) (h : f.isParsable = false) :
    (withSkipDefault f).default.isSome = true ∨ f.isContainer = true := by
  unfold FieldDecl.isParsable at h
  cases hc : f.isContainer with
  | true => exact .inr rfl
  | false =>
    refine .inl ?_
    simp only [hc, Bool.not_false, Bool.true_and, Bool.not_eq_false'] at h
    unfold FieldDecl.isSkipped at h
    unfold withSkipDefault
    cases hs : f.skip with
    | none => simp [hs] at h
    | some sk =>
      simp only [hs, Option.map_some, Option.getD_some] at h
      cases f.default <;> simp [h]

/-- What an accepted structure is known to be like. -/
theorem struct_facts {lib : SynLib} {d : StructIn} {r : StructDecl} (h : d.read lib = .ok r)
    (hw : ShapeFits d.shape d.fields) :
    (∀ f ∈ r.fields, f.isParsable = false → f.default.isSome = true ∨ r.default.isSome = true ∨ f.isContainer = true) ∧
    (r.transparent.isSome = true → CanBeTransparent r.fields) ∧
    (r.shape = .unnamed → ∀ f ∈ r.fields, f.append = none ∧ f.rest = none) ∧ r.shape = d.shape := by
  obtain ⟨ds, acc, hf, hinv, he, -, rfl⟩ := StructIn.read_ok h
  have hfields : (structDone d.shape ds acc).2.fields =
      if acc.val.default.isNone then ds.map fillSkipped else ds := rfl
  have hds : acc.val.default.isNone = true ∨
      (structDone d.shape ds acc).2.default.isSome = true ∨ acc.val.default.isParseError = true := by
    show _ ∨ acc.val.default.intoOption.isSome = true ∨ _
    cases acc.val.default <;> simp [FieldStatus.isNone, FieldStatus.intoOption, FieldStatus.isParseError]
  have hpar : ∀ f, (fillSkipped f).isParsable = f.isParsable := by
    intro f; rw [fillSkipped_eq]; rfl
  refine ⟨?_, ?_, ?_, rfl⟩
  · intro f hm hp
    rw [hfields] at hm
    rcases hds with hn | hn | hn
    · rw [if_pos hn] at hm
      obtain ⟨g, hg, rfl⟩ := List.mem_map.1 hm
      rw [hpar] at hp
      rw [fillSkipped_eq]
      rcases skipDefault_filled g hp with h | h
      · exact .inl h
      · exact .inr (.inr h)
    · exact .inr (.inl hn)
    · exact absurd he (hinv.default hn)
  · intro ht
    have ht' : acc.val.transparent.isSome = true := by
      have : acc.val.transparent.intoOption.isSome = true := ht
      cases hx : acc.val.transparent <;> simp_all [FieldStatus.intoOption, FieldStatus.isSome]
    have := (transparentRefusal_none _ _).1 (hinv.transparent ht')
    rw [hfields]
    split
    · obtain ⟨f, h1, h2, h3⟩ := this
      refine ⟨fillSkipped f, ?_, ?_, ?_⟩
      · rw [List.filter_map, show ((fun x => x.isParsable) ∘ fillSkipped) = fun x => x.isParsable from funext hpar, h1]
        rfl
      · rw [fillSkipped_eq]; exact h2
      · rw [fillSkipped_eq]; exact h3
    · exact this
  · intro hs f hm
    have hna := noAppendRest_of hw hf hs
    rw [hfields] at hm
    split at hm
    · obtain ⟨g, hg, rfl⟩ := List.mem_map.1 hm
      rw [fillSkipped_eq]
      exact hna g hg
    · exact hna f hm

omit [Env] in
theorem CanBeTransparent.count {fs : List FieldDecl} (h : CanBeTransparent fs) : fs.countP (·.isParsable) = 1 := by
  obtain ⟨f, h, -⟩ := h
  rw [List.countP_eq_length_filter, h]; rfl

/-- The default of a structure has a value for each field. -/
def StructSem.Fits {V : Type} (sem : StructSem V) (n : Nat) : Prop := ∀ d, (sem.default d).length = n

/-- C69: the code that the attribute derives generate for an accepted structure can rely on what it needs. -/
theorem c69_struct_attr {lib : SynLib} {d : StructIn} {r : StructDecl} (h : d.read lib = .ok r)
    (hw : ShapeFits d.shape d.fields) {V : Type} {sem : StructSem V} (hd : sem.Fits r.fields.length) :
    (r.toDef sem).AttrAccepted := by
  obtain ⟨h1, h2, h3, -⟩ := struct_facts h hw
  refine ⟨?_, ?_, ?_, ?_⟩
  · intro f hf hp
    obtain ⟨g, i, hg, rfl⟩ := mem_toDef hf
    rcases h1 g hg hp with h | h | h
    · exact .inl (by simpa [FieldDecl.toField] using h)
    · exact .inr (.inl (by simpa [StructDecl.toDef] using h))
    · exact .inr (.inr h)
  · intro t ht
    simp only [StructDecl.toDef, Option.map_eq_some_iff] at ht
    obtain ⟨x, -, rfl⟩ := ht
    simp [StructDecl.toDef, hd x]
  · intro ht
    simp only [StructDef.isTransparent, StructDecl.toDef, Bool.and_eq_true] at ht
    have : r.transparent.isSome = true := by
      cases hx : r.transparent with
      | none => simp [hx] at ht
      | some x => rfl
    show (r.fields.zipIdx.map fun x => x.1.toField (sem.field x.2)).countP _ = 1
    rw [countP_toDef r.fields sem.field (·.isParsable) (·.isParsable) fun _ _ => rfl]
    exact (h2 this).count
  · intro hs f hf
    obtain ⟨g, i, hg, rfl⟩ := mem_toDef hf
    obtain ⟨a, b⟩ := h3 hs g hg
    simp [FieldDecl.toField, a, b]

/-- C69: so can the code that the `ParseMetaItem` derive generates. -/
theorem c69_struct_meta {lib : SynLib} {d : StructIn} {r : StructDecl} (h : d.read lib = .ok r)
    (hw : ShapeFits d.shape d.fields) {V : Type} {sem : StructSem V} (hd : sem.Fits r.fields.length) :
    (r.toMetaDef sem).Accepted := by
  obtain ⟨h1, h2, h3, -⟩ := struct_facts h hw
  have hpar : ∀ f, (fillContainer f).isParsable = f.isParsable := by
    intro f; unfold fillContainer; split
    · split <;> rfl
    · rfl
  have hfill : ∀ f, (fillContainer f).append = f.append ∧ (fillContainer f).rest = f.rest ∧
      (f.default.isSome = true ∨ f.isContainer = true → (fillContainer f).default.isSome = true) := by
    intro f
    unfold fillContainer FieldDecl.isContainer
    cases hc : f.container with
    | none => simp
    | some c => cases hv : c.value <;> cases hdf : f.default <;> simp [hv, hdf]
  refine ⟨⟨?_, ?_⟩, ?_, ?_⟩
  · intro f hf hp
    obtain ⟨g, i, hg, rfl⟩ := mem_toDef hf
    obtain ⟨k, hk, rfl⟩ := List.mem_map.1 hg
    have hp' : k.isParsable = false := (hpar k) ▸ hp
    rcases h1 k hk hp' with h | h | h
    · exact .inl (by simpa [FieldDecl.toField] using (hfill k).2.2 (.inl h))
    · exact .inr (.inl (by simpa [StructDef.data, StructDecl.toMetaDef, StructDecl.toDef] using h))
    · exact .inl (by simpa [FieldDecl.toField] using (hfill k).2.2 (.inr h))
  · intro t ht
    simp only [StructDef.data, StructDecl.toMetaDef, StructDecl.toDef, Option.map_eq_some_iff] at ht
    obtain ⟨x, -, rfl⟩ := ht
    simp [StructDef.data, StructDecl.toMetaDef, StructDecl.toDef, hd x]
  · intro ht
    simp only [StructDef.isTransparent, StructDecl.toMetaDef, StructDecl.toDef, Bool.and_eq_true] at ht
    have : r.transparent.isSome = true := by
      cases hx : r.transparent with
      | none => simp [hx] at ht
      | some x => rfl
    show ((r.fields.map fillContainer).zipIdx.map fun x => x.1.toField (sem.field x.2)).countP _ = 1
    rw [countP_toDef _ sem.field (·.isParsable) (·.isParsable) fun _ _ => rfl, List.countP_map,
      show ((fun x => x.isParsable) ∘ fillContainer) = fun x => x.isParsable from funext hpar]
    exact (h2 this).count
  · intro hs f hf
    obtain ⟨g, i, hg, rfl⟩ := mem_toDef hf
    obtain ⟨k, hk, rfl⟩ := List.mem_map.1 hg
    obtain ⟨a, b⟩ := h3 hs k hk
    simp [FieldDecl.toField, hfill k, a, b]

/-- The implementations that the code for a field calls end without panic. -/
structure FieldSem.Fine {V : Type} (s : FieldSem V) : Prop where
  item : s.item.Good
  flatNamed : ∀ mode pre validate, Good (s.flatNamed.parse mode pre validate)
  flatUnnamed : ∀ mode i, Good (s.flatUnnamed.parse mode i)
  append : ∀ names, Good (s.appendP names)
  rest : ∀ names, Good (s.restP names)

omit [Env] in
theorem FieldSem.Fine.flatCall {V : Type} {s : FieldSem V} (h : s.Fine) (f : FieldDecl) (pre : Str) (sp : Span)
    (allowed : List Str) : Good ((f.toField s).flatCall pre sp allowed) := by
  unfold Field.flatCall
  split
  · exact h.append _
  · split
    · exact h.rest _
    · exact h.flatNamed _ _ _

omit [Env] in
theorem StructDecl.fieldsFine {V : Type} {sem : StructSem V} (hs : ∀ i, (sem.field i).Fine) (r : StructDecl) :
    (r.toDef sem).FieldsFine := by
  refine ⟨fun f hf => ?_, fun _ f hf _ pre sp allowed => ?_, fun _ f hf _ i => ?_⟩
  · obtain ⟨g, i, -, rfl⟩ := mem_toDef hf
    exact (hs i).item
  · obtain ⟨g, i, -, rfl⟩ := mem_toDef hf
    exact (hs i).flatCall g pre sp allowed
  · obtain ⟨g, k, -, rfl⟩ := mem_toDef hf
    exact (hs k).flatUnnamed _ _

/-- C69: the code generated for an accepted structure never panics, in any of the derives, whatever it parses. -/
theorem c69_struct_never_panics {lib : SynLib} {d : StructIn} {r : StructDecl} (h : d.read lib = .ok r)
    (hw : ShapeFits d.shape d.fields) {V : Type} {sem : StructSem V} (hd : sem.Fits r.fields.length)
    (hs : ∀ i, (sem.field i).Fine) :
    (r.toMetaDef sem).dict.Good ∧
    ∀ {O : Type} (attributes : List (List Str)) (a : HasAttrs O) (container : O → V) (o : O),
      ((r.toDef sem).attrTarget attributes).parseAttributes a container o ≠ .panic ∧
      (((r.toDef sem).attrTarget attributes).extractAttributes a container o).1 ≠ .panic :=
  ⟨StructDef.dict_good (c69_struct_meta h hw hd) (StructDecl.fieldsFine hs _),
    fun attributes a container o =>
      c65_struct_never_panics (c69_struct_attr h hw hd) (StructDecl.fieldsFine hs _) attributes a container o⟩

/-! ## Enums in the generated code -/

/-- What an accepted variant is known to be like. -/
theorem variant_facts {lib : SynLib} {v : VariantIn} {r : VariantDecl} (h : v.read lib = .ok r)
    (hw : ShapeFits v.shape v.fields) :
    (∀ f ∈ r.fields, f.isParsable = false → f.default.isSome = true ∨ f.isContainer = true) ∧
    (r.transparent.isSome = true → CanBeTransparent r.fields) ∧
    (r.shape = .unnamed → ∀ f ∈ r.fields, f.append = none ∧ f.rest = none) := by
  obtain ⟨ds, acc, hf, hinv, he, -, rfl⟩ := VariantIn.read_ok h
  have hfields : (variantDone lib v ds acc).2.fields = ds.map fillSkipped := rfl
  have hpar : ∀ f, (fillSkipped f).isParsable = f.isParsable := by
    intro f; rw [fillSkipped_eq]; rfl
  rw [hfields]
  refine ⟨?_, ?_, ?_⟩
  · intro f hm hp
    obtain ⟨g, hg, rfl⟩ := List.mem_map.1 hm
    rw [hpar] at hp
    rw [fillSkipped_eq]
    exact skipDefault_filled g hp
  · intro ht
    have ht' : acc.val.transparent.isSome = true := by
      have : ((acc.val.transparent.flatten FieldStatus.ofOption).intoOption.map (·.value)).isSome = true := ht
      cases hx : acc.val.transparent <;> simp_all [FieldStatus.intoOption, FieldStatus.isSome, FieldStatus.flatten]
    obtain ⟨f, h1, h2, h3⟩ := (transparentRefusal_none _ _).1 (hinv.transparent ht')
    refine ⟨fillSkipped f, ?_, ?_, ?_⟩
    · rw [List.filter_map, show ((fun x => x.isParsable) ∘ fillSkipped) = fun x => x.isParsable from funext hpar, h1]
      rfl
    · rw [fillSkipped_eq]; exact h2
    · rw [fillSkipped_eq]; exact h3
  · intro hs f hm
    obtain ⟨g, hg, rfl⟩ := List.mem_map.1 hm
    rw [fillSkipped_eq]
    exact noAppendRest_of hw hf hs g hg

omit [Env] in
theorem metaCheck_nil (e : EnumDecl) (errs : Errors) : (e.metaCheck errs).toList = [] ↔ errs.toList = [] ∧
    ∀ v ∈ e.variants, ∀ f ∈ v.fields, f.isContainer = true → f.default.isSome = true := by
  unfold EnumDecl.metaCheck
  have inner : ∀ (fs : List FieldDecl) (errs : Errors), (fs.foldl (fun errs f =>
      match f.container with
      | some c =>
        if f.isContainer && f.default.isNone then
          errs.push c.span (.custom (txt "derive(ParseMetaItem) requires container field to have `default`"))
        else errs
      | none => errs) errs).toList = [] ↔ errs.toList = [] ∧
        ∀ f ∈ fs, f.isContainer = true → f.default.isSome = true := by
    intro fs
    induction fs with
    | nil => simp
    | cons f fs ih =>
      intro errs
      rw [List.foldl_cons, ih, List.forall_mem_cons, ← and_assoc]
      refine and_congr_left' ?_
      cases hc : f.container with
      | none => simp [FieldDecl.isContainer, hc]
      | some c =>
        dsimp only
        cases hd : f.default <;> cases hi : f.isContainer <;> simp
  induction e.variants generalizing errs with
  | nil => simp
  | cons v vs ih =>
    rw [List.foldl_cons, List.forall_mem_cons, ← and_assoc, ← inner]
    exact ih _

/-- Not checked by the derives: a variant that is transparent is not flattened, and its field is not the rest.  (The
generated code would not compile in the first case; the macro panics in the second, see `c69_transparent_violated`.) -/
def EnumDecl.TransparentFine (e : EnumDecl) : Prop :=
  ∀ v ∈ e.variants, v.transparent = some true → v.isFlatten = false ∧ ∀ f ∈ v.fields, f.isRest = false

/-- The parts that the code of an enum is made of are fine. -/
theorem enum_accepted {lib : SynLib} {d : EnumIn} {r : EnumDecl} (h : d.read lib = .ok r)
    (hw : ∀ v ∈ d.variants, ShapeFits v.shape v.fields) (ht : r.TransparentFine) {V : Type} {sem : EnumSem V}
    {site : Site V} (hc : site.obj.isSome = true ∨
      ∀ v ∈ r.variants, ∀ f ∈ v.fields, f.isContainer = true → f.default.isSome = true) :
    (r.toDef sem).Accepted site := by
  obtain ⟨hv, hchk⟩ := EnumIn.read_ok h
  intro w hwm _
  obtain ⟨⟨v, i⟩, hm, rfl⟩ := List.mem_map.1 hwm
  have hvm : v ∈ r.variants := List.fst_mem_of_mem_zipIdx hm
  have hread : ∃ u ∈ d.variants, u.read lib = .ok v := by
    have : (Res.ok v : Res VariantDecl) ∈ d.variants.map (VariantIn.read lib) := by
      rw [hv]; exact List.mem_map_of_mem hvm
    exact List.mem_map.1 this
  obtain ⟨u, hu, hread⟩ := hread
  obtain ⟨h1, h2, h3⟩ := variant_facts hread (hw u hu)
  refine ⟨?_, ?_, ?_, ?_⟩
  · intro f hf hp
    obtain ⟨g, k, hg, rfl⟩ := mem_toDef hf
    rcases h1 g hg hp with h | h
    · exact .inl (by simpa [FieldDecl.toField] using h)
    · rcases hc with hc | hc
      · exact .inr ⟨h, hc⟩
      · exact .inl (by simpa [FieldDecl.toField] using hc v hvm g hg h)
  · intro hs f hf
    obtain ⟨g, k, hg, rfl⟩ := mem_toDef hf
    obtain ⟨a, b⟩ := h3 hs g hg
    simp [FieldDecl.toField, a, b]
  · intro htr
    have htv : v.transparent = some true := by
      have : v.transparent.getD false = true := htr
      cases hx : v.transparent with
      | none => simp [hx] at this
      | some b => simp_all
    have hct := h2 (by rw [htv]; rfl)
    obtain ⟨a, b⟩ := ht v hvm htv
    refine ⟨a, ?_, ?_⟩
    · show (v.fields.zipIdx.map fun x => x.1.toField (sem.field i x.2)).countP _ = 1
      rw [countP_toDef v.fields (sem.field i) (·.isParsable) (·.isParsable) fun _ _ => rfl]
      exact hct.count
    · intro f hf hp
      obtain ⟨g, k, hg, rfl⟩ := mem_toDef hf
      obtain ⟨g', h4, h5, h6⟩ := hct
      have : g ∈ v.fields.filter (·.isParsable) := List.mem_filter.2 ⟨hg, hp⟩
      rw [h4, List.mem_singleton] at this
      subst this
      rw [FieldDecl.toField_isFlat]
      simp [FieldDecl.isFlat, h5, h6, b g hg]
  · intro hfl
    exact hchk.flatNamed v hvm hfl

omit [Env] in
theorem EnumDecl.fieldsFine {V : Type} {sem : EnumSem V} (hs : ∀ i j, (sem.field i j).Fine) (r : EnumDecl) :
    (r.toDef sem).FieldsFine := by
  intro w hw _
  obtain ⟨⟨v, i⟩, -, rfl⟩ := List.mem_map.1 hw
  refine ⟨fun f hf => ?_, fun _ f hf _ pre sp allowed => ?_, fun _ f hf _ j => ?_⟩
  · obtain ⟨g, k, -, rfl⟩ := mem_toDef hf
    exact (hs i k).item
  · obtain ⟨g, k, -, rfl⟩ := mem_toDef hf
    exact (hs i k).flatCall g pre sp allowed
  · obtain ⟨g, k, -, rfl⟩ := mem_toDef hf
    exact (hs i k).flatUnnamed _ _

/-- C69 for enums.  Missing, because it does not hold: transparent variants that are flattened or whose field is the
rest, and `and_then` functions of the fields of transparent variants that fail (`c44_and_then_violated`). -/
theorem c69_enum_never_panics_partial {lib : SynLib} {d : EnumIn} {r : EnumDecl} (h : d.read lib = .ok r)
    (hw : ∀ v ∈ d.variants, ShapeFits v.shape v.fields) (ht : r.TransparentFine) {V : Type} {sem : EnumSem V}
    (hs : ∀ i j, (sem.field i j).Fine) (hn : (r.toDef sem).Infallible) :
    ((r.metaCheck Errors.new).toList = [] → (r.toDef sem).dict.Good) ∧
    ∀ {O : Type} (attributes : List (List Str)) (a : HasAttrs O) (container : O → V) (o : O),
      ((r.toDef sem).attrTarget attributes).parseAttributes a container o ≠ .panic ∧
      (((r.toDef sem).attrTarget attributes).extractAttributes a container o).1 ≠ .panic :=
  ⟨fun hm => EnumDef.dict_good (enum_accepted h hw ht (.inr ((metaCheck_nil r _).1 hm).2)) (EnumDecl.fieldsFine hs _) hn,
    fun attributes a container o => c65_enum_never_panics_partial
      (fun _ _ => enum_accepted h hw ht (.inl rfl)) (EnumDecl.fieldsFine hs _) hn attributes a container o⟩

omit [Env] in
theorem toVariant_fieldKey {V : Type} (sem : Nat → FieldSem V) (v : VariantDecl) :
    (v.toVariant sem).fieldKey = v.fieldKey := by
  unfold Variant.fieldKey VariantDecl.fieldKey
  refine congrArg _ ?_
  show (v.fields.zipIdx.map fun x => x.1.toField (sem x.2)).filterMap _ = _
  rw [List.filterMap_map]
  have : ∀ (fs : List FieldDecl) (k : Nat), (fs.zipIdx k).filterMap ((fun f : Field V =>
      let idents := btSet cmpStr (if f.default.isSome || f.isFlat || !f.isParsable then [] else f.idents)
      if idents.isEmpty then none else some idents) ∘ fun x => x.1.toField (sem x.2)) =
      fs.filterMap fun f =>
        let idents := btSet cmpStr (if f.default.isSome || f.isFlat || !f.isParsable then [] else f.idents.map (·.1))
        if idents.isEmpty then none else some idents := by
    intro fs
    induction fs with
    | nil => intro k; rfl
    | cons f fs ih =>
      intro k
      rw [List.zipIdx_cons, List.filterMap_cons, List.filterMap_cons, ih]
      simp only [Function.comp, FieldDecl.toField_isFlat, FieldDecl.toField_isParsable]
      have h1 : (f.toField (sem k)).default.isSome = f.default.isSome := by simp [FieldDecl.toField]
      have h2 : (f.toField (sem k)).idents = f.idents.map (·.1) := rfl
      rw [h1, h2]
  exact this v.fields 0

/-- C68: in the code of an accepted enum no two flattened variants have the same keys, which is what C45 needs, and
each name selects at most one variant. -/
theorem c68_distinct {lib : SynLib} {d : EnumIn} {r : EnumDecl} (h : d.read lib = .ok r) {V : Type}
    (sem : EnumSem V) : (r.toDef sem).DistinctKeys ∧
      ∀ (i j : Nat) (v w : Variant V) (k : Str), (r.toDef sem).variants[i]? = some v → (r.toDef sem).variants[j]? = some w →
        v.isFlatten = false → w.isFlatten = false → k ∈ v.idents → k ∈ w.idents → i = j := by
  obtain ⟨-, hchk⟩ := EnumIn.read_ok h
  have hget : ∀ {j : Nat} {w : Variant V}, (r.toDef sem).variants[j]? = some w →
      ∃ w', r.variants[j]? = some w' ∧ w = w'.toVariant (sem.field j) := by
    intro j w hw
    simp only [EnumDecl.toDef, List.getElem?_map, List.getElem?_zipIdx, Option.map_eq_some_iff] at hw
    obtain ⟨⟨a, b⟩, ⟨g', h1, h2⟩, rfl⟩ := hw
    cases h2
    exact ⟨_, h1, by simp⟩
  have pw : ∀ {R : VariantDecl → VariantDecl → Prop}, r.variants.Pairwise R → ∀ (i j : Nat) v w, i < j →
      r.variants[i]? = some v → r.variants[j]? = some w → R v w := by
    intro R hp i j v w hij hi hj
    obtain ⟨hi', rfl⟩ := List.getElem?_eq_some_iff.1 hi
    obtain ⟨hj', rfl⟩ := List.getElem?_eq_some_iff.1 hj
    exact List.pairwise_iff_getElem.1 hp i j hi' hj' hij
  refine ⟨?_, ?_⟩
  · intro i j v w hi hj hv hw hs
    obtain ⟨v', hi', rfl⟩ := hget hi
    obtain ⟨w', hj', rfl⟩ := hget hj
    rw [Variant.sameKey_iff, toVariant_fieldKey, toVariant_fieldKey] at hs
    rcases Nat.lt_trichotomy i j with h | h | h
    · exact absurd hs (pw hchk.flatKeys i j v' w' h hi' hj' hv.1 hw.1)
    · exact h
    · exact absurd hs.symm (pw hchk.flatKeys j i w' v' h hj' hi' hw.1 hv.1)
  · intro i j v w k hi hj hv hw hkv hkw
    obtain ⟨v', hi', rfl⟩ := hget hi
    obtain ⟨w', hj', rfl⟩ := hget hj
    have hp : r.variants.Pairwise fun v w => v.isFlatten = false → w.isFlatten = false →
        k ∈ v.idents.map (·.1) → k ∈ w.idents.map (·.1) → False := by
      have := hchk.names
      rw [byNameNames, List.flatMap_def, List.Nodup, List.pairwise_flatten, List.pairwise_map] at this
      refine this.2.imp fun {v w} hd h1 h2 h3 h4 => ?_
      simp only [h1, h2, Bool.false_eq_true, if_false] at hd
      exact hd k h3 k h4 rfl
    rcases Nat.lt_trichotomy i j with h | h | h
    · exact (pw hp i j v' w' h hi' hj' hv hw hkv hkw).elim
    · exact h
    · exact (pw hp j i w' v' h hj' hi' hw hv hkw hkv).elim

/-! ## Examples -/

/-- `a: T` -/
def plainIn (n : String) (sp : Span) : FieldIn := ⟨some (txt n, sp), []⟩

/-- `#[deluxe(alias = b)] a: T` -/
def aliasIn (n al : String) (sp : Span) : FieldIn :=
  ⟨some (txt n, sp), [deluxeList [.ident (txt "alias") (sp + 1), .punct '=' false (sp + 2), .ident (txt al) (sp + 3)]]⟩

/-- `#[deluxe(default)] T` -/
def defaultIn (sp : Span) : FieldIn := ⟨none, [deluxeList [.ident (txt "default") sp]]⟩

theorem plainIn_read (n : String) (sp : Span) : (plainIn n sp).read demoLib = .ok (declared (plainIn n sp) []) :=
  (c47_field (f := plainIn n sp) (bs := []) (ss := []) .nil .nil _).2
    ⟨⟨List.nodup_nil, by simp, List.nodup_nil, by simp⟩, by simp [Compatible], rfl⟩

theorem tupleIn_read : FieldIn.read demoLib ⟨none, []⟩ = .ok (declared ⟨none, []⟩ []) :=
  (c47_field (f := ⟨none, []⟩) (bs := []) (ss := []) .nil .nil _).2
    ⟨⟨List.nodup_nil, by simp, List.nodup_nil, by simp⟩, by simp [Compatible], rfl⟩

theorem aliasIn_read (n al : String) (sp : Span) (h : txt n ≠ txt al) : (aliasIn n al sp).read demoLib =
    .ok (declared (aliasIn n al sp) [.alias (sp + 1) (txt al, sp + 3)]) := by
  have hm : ListStreams (deluxeAttrs (aliasIn n al sp).attrs) [⟨[.ident (txt "alias") (sp + 1),
    .punct '=' false (sp + 2), .ident (txt al) (sp + 3)], callSite, none⟩] := .list .nil
  refine (c47_field (bs := [.alias (sp + 1) (txt al, sp + 3)]) hm
    (.cons (bs := [_]) (.last (by simp) ?_) .nil) _).2 ⟨⟨by simp [FieldAttr.key, repeatable], by simp [aliasIn],
      List.pairwise_singleton _ _, ?_⟩, ?_, rfl⟩
  · exact .alias (sp := sp + 1) (vt := [.punct '=' false (sp + 2), .ident (txt al) (sp + 3)])
      (.mk (pt := [.ident (txt "alias") (sp + 1)]) (.plain (.one _ _)) (by simp [StartsColon2])) fun u => rfl
  · intro b hb m hm
    simp only [List.mem_cons, List.not_mem_nil, or_false] at hb
    subst hb
    cases hm
    simpa [aliasIn] using h
  · intro p hp ⟨h1, h2⟩
    simp only [List.map_cons, List.map_nil, List.mem_cons, List.not_mem_nil, or_false, FieldAttr.key] at h1 h2
    simp only [exclusivePairs, List.mem_cons, List.not_mem_nil, or_false] at hp
    rcases hp with rfl | rfl | rfl | rfl | rfl | rfl | rfl | rfl | rfl | rfl <;> simp at h1 h2

theorem defaultIn_read (sp : Span) : (defaultIn sp).read demoLib =
    .ok (declared (defaultIn sp) [.default (.default sp)]) := by
  rfl

/-- C46: `struct S { a: T, #[deluxe(alias = c)] b: T }` is accepted. -/
def goodStruct : StructIn := ⟨.named, [plainIn "a" 1, aliasIn "b" "c" 2], []⟩

/-- C46: `struct S { a: T, #[deluxe(alias = a)] b: T }` is not. -/
def badStruct : StructIn := ⟨.named, [plainIn "a" 1, aliasIn "b" "a" 2], []⟩

theorem goodStruct_read : ∃ r, goodStruct.read demoLib = .ok r ∧ r.fields.map (fun f => f.idents.map (·.1)) =
    [[txt "a"], [txt "b", txt "c"]] := by
  refine ⟨_, (c46_struct (d := goodStruct) (bs := []) (ss := []) .nil .nil _).2 ⟨[declared (plainIn "a" 1) [],
    declared (aliasIn "b" "c" 2) [.alias 3 (txt "c", 5)]], ?_, ⟨List.nodup_nil, by simp, by simp, by simp⟩, by decide,
    by unfold OneContainer; decide, by simp [goodStruct], rfl⟩, rfl⟩
  show [_, _] = [_, _]
  rw [plainIn_read, aliasIn_read _ _ _ (by decide)]

/-- C46: the second `a` is reported, at its place. -/
example : ∃ e, badStruct.read demoLib = .err e ∧ ⟨5, duplicateNameText (txt "field") (txt "a")⟩ ∈ e.toList := by
  refine c46_reported (d := badStruct) (bs := []) (ss := []) (ds := [declared (plainIn "a" 1) [],
    declared (aliasIn "b" "a" 2) [.alias 3 (txt "a", 5)]]) .nil .nil ?_ ⟨List.nodup_nil, by simp, by simp, by simp⟩
    (pre := [(txt "a", 1), (txt "b", 2)]) (post := []) rfl (by simp)
  show [_, _] = [_, _]
  rw [plainIn_read, aliasIn_read _ _ _ (by decide)]

/-- C46 does not hold for variants: `A { a: T, #[deluxe(alias = a)] b: T }` is accepted, and in the generated code
the second field never gets an item with the key `a`. -/
theorem c46_variant_violated :
    ∃ r, VariantIn.read demoLib ⟨(txt "A", 9), 9, .named, [plainIn "a" 1, aliasIn "b" "a" 2], []⟩ = .ok r ∧
      ¬ (fieldNames r.fields).Nodup ∧
      ∀ {V : Type} (sem : Nat → FieldSem V) (pre : Str) (g : Field V),
        ¬ Owns (r.toVariant sem).fields pre (pre ++ txt "a") g 1 := by
  refine ⟨_, (c48_variant (v := ⟨(txt "A", 9), 9, .named, [plainIn "a" 1, aliasIn "b" "a" 2], []⟩) (bs := []) (ss := []) .nil .nil _).2 ⟨[declared (plainIn "a" 1) [],
    declared (aliasIn "b" "a" 2) [.alias 3 (txt "a", 5)]], ?_, ⟨List.nodup_nil, by simp, by simp, List.nodup_nil, by simp⟩,
    fun _ _ => by decide, by simp [VariantCompatible], by unfold OneContainer; decide, by simp, rfl⟩, by decide, ?_⟩
  · show [_, _] = [_, _]
    rw [plainIn_read, aliasIn_read _ _ _ (by decide)]
  · rintro V sem pre g ⟨k, hk, -, -, -, h⟩
    rw [List.append_cancel_left hk.symm] at h
    refine h 0 ((withSkipDefault (declared (plainIn "a" 1) [])).toField (sem 0)) (by omega) rfl ⟨rfl, rfl⟩ ?_
    exact List.mem_cons_self

/-- C48: `struct S(#[deluxe(default)] T, U)` is rejected, whatever else it has. -/
example (r : StructDecl) : StructIn.read demoLib ⟨.unnamed, [defaultIn 1, ⟨none, []⟩], []⟩ ≠ .ok r := by
  intro h
  obtain ⟨ds, hf, -, -, -, hd, hr⟩ := (c46_struct (d := ⟨.unnamed, [defaultIn 1, ⟨none, []⟩], []⟩) (bs := []) (ss := [])
    .nil .nil _).1 h
  simp only [List.map_cons, List.map_nil, defaultIn_read, tupleIn_read] at hf
  obtain rfl : ds = [declared (defaultIn 1) [.default (.default 1)], declared ⟨none, []⟩ []] :=
    (List.map_inj_right (f := Res.ok) (fun _ _ h => by cases h; rfl)).1 hf.symm
  have := hd rfl
  rw [hr] at this
  have := (List.pairwise_cons.1 this).1 _ List.mem_cons_self ⟨rfl, rfl⟩ ⟨rfl, rfl⟩ rfl
  exact absurd this (by decide)

/-- C48: `struct S(T, #[deluxe(default)] U)` is accepted. -/
example : ∃ r, StructIn.read demoLib ⟨.unnamed, [⟨none, []⟩, defaultIn 1], []⟩ = .ok r := by
  refine ⟨_, (c46_struct (d := ⟨.unnamed, [⟨none, []⟩, defaultIn 1], []⟩) (bs := []) (ss := []) .nil .nil _).2
    ⟨[declared ⟨none, []⟩ [],
    declared (defaultIn 1) [.default (.default 1)]], ?_, ⟨List.nodup_nil, by simp, by simp, by simp⟩, by decide,
    by unfold OneContainer; decide, fun _ => ?_, rfl⟩⟩
  · simp only [List.map_cons, List.map_nil, defaultIn_read, tupleIn_read]
  · exact List.pairwise_cons.2 ⟨fun g hg h1 h2 h3 => absurd h3 (by decide), List.pairwise_singleton _ _⟩

/-- `#[deluxe(flatten)]` -/
def flattenTok : Attr := deluxeList [.ident (txt "flatten") 7]

/-- `enum E { A { a: T }, #[deluxe(flatten)] B { b: T, c: T } }` -/
def goodEnum : EnumIn :=
  ⟨[⟨(txt "A", 8), 8, .named, [plainIn "a" 1], []⟩,
    ⟨(txt "B", 9), 9, .named, [plainIn "b" 2, plainIn "c" 3], [flattenTok]⟩], []⟩

/-- `enum E { #[deluxe(flatten)] A { b: T, a: T }, #[deluxe(flatten)] B { a: T, b: T } }` -/
def badEnum : EnumIn :=
  ⟨[⟨(txt "A", 8), 8, .named, [plainIn "b" 1, plainIn "a" 4], [flattenTok]⟩,
    ⟨(txt "B", 9), 9, .named, [plainIn "a" 2, plainIn "b" 3], [flattenTok]⟩], []⟩

theorem byName_read (n a : String) (sp spa : Span) (hn : demoLib.isIdent (bareName (txt n)) = true) :
    VariantIn.read demoLib ⟨(txt n, sp), sp, .named, [plainIn a spa], []⟩ =
    .ok (declaredVariant demoLib ⟨(txt n, sp), sp, .named, [plainIn a spa], []⟩ [declared (plainIn a spa) []] []) :=
  (c48_variant (v := ⟨(txt n, sp), sp, .named, [plainIn a spa], []⟩) (bs := []) (ss := []) .nil .nil _).2
    ⟨[declared (plainIn a spa) []], by simp [plainIn_read], ⟨List.nodup_nil, by simp, by simp, List.nodup_nil, by simp⟩,
      fun _ _ => hn, by simp [VariantCompatible], Nat.zero_le 1, by simp, rfl⟩

theorem flat_read (n a b : String) (sp spa spb : Span) :
    VariantIn.read demoLib ⟨(txt n, sp), sp, .named, [plainIn a spa, plainIn b spb], [flattenTok]⟩ =
    .ok (declaredVariant demoLib ⟨(txt n, sp), sp, .named, [plainIn a spa, plainIn b spb], [flattenTok]⟩
      [declared (plainIn a spa) [], declared (plainIn b spb) []] [.flatten (some ⟨true, 7⟩)]) := by
  have hm : ListStreams (deluxeAttrs [flattenTok]) [⟨[.ident (txt "flatten") 7], callSite, none⟩] := .list .nil
  refine (c48_variant (v := ⟨(txt n, sp), sp, .named, [plainIn a spa, plainIn b spb], [flattenTok]⟩)
    (bs := [.flatten (some ⟨true, 7⟩)]) hm (.cons (bs := [_]) (.last (by simp) ?_) .nil) _).2
    ⟨[declared (plainIn a spa) [], declared (plainIn b spb) []], by simp [plainIn_read], ⟨by simp [VariantAttr.key], by simp,
      by simp [VariantAttr.key], List.nodup_nil, by simp [VariantAttr.name?]⟩,
      fun _ h => absurd rfl h, by simp [VariantCompatible, VariantAttr.name?],
      Nat.zero_le 1, by simp, rfl⟩
  exact .flatten (sp := 7) (vt := []) (.mk (pt := [.ident (txt "flatten") 7]) (.plain (.one _ _))
    (by simp [StartsColon2])) fun u => rfl

/-- C68: `goodEnum` is accepted. -/
theorem goodEnum_read : ∃ r, goodEnum.read demoLib = .ok r := by
  refine ⟨_, (c68_enum (d := goodEnum) (bs := []) (ss := []) .nil .nil _).2 ⟨
    [declaredVariant demoLib ⟨(txt "A", 8), 8, .named, [plainIn "a" 1], []⟩ [declared (plainIn "a" 1) []] [],
      declaredVariant demoLib ⟨(txt "B", 9), 9, .named, [plainIn "b" 2, plainIn "c" 3], [flattenTok]⟩
        [declared (plainIn "b" 2) [], declared (plainIn "c" 3) []] [.flatten (some ⟨true, 7⟩)]],
    ?_, List.nodup_nil, (variantsOk_iff _ _).2 ⟨?_, ?_, ?_, ?_, ?_, ?_⟩, rfl⟩⟩
  · show [_, _] = [_, _]
    rw [byName_read _ _ _ _ (by decide), flat_read]
  · decide
  · exact List.pairwise_cons.2 ⟨fun w hw h => absurd h (by decide), List.pairwise_singleton _ _⟩
  · intro v hv _
    simp only [List.mem_cons, List.not_mem_nil, or_false] at hv
    rcases hv with rfl | rfl <;> rfl
  · exact List.pairwise_cons.2 ⟨fun w hw h => absurd h (by decide), List.pairwise_singleton _ _⟩
  · intro v hv hf w hw hwf
    simp only [List.mem_cons, List.not_mem_nil, or_false] at hv hw
    rcases hv with rfl | rfl
    · exact absurd hf (by decide)
    · rcases hw with rfl | rfl
      · decide
      · exact absurd hwf (by decide)
  · intro h; cases h

omit [Env] in
theorem ok_pair {α : Type} {a b : α} {l : List α} (h : [Res.ok a, Res.ok b] = l.map .ok) : l = [a, b] :=
  (List.map_inj_right (f := Res.ok) (l' := [a, b]) (fun _ _ h => by cases h; rfl)).1 h.symm

/-- C68: `badEnum` is not: its variants need the same fields, in another order. -/
example (r : EnumDecl) : badEnum.read demoLib ≠ .ok r := by
  intro h
  obtain ⟨vs, hf, -, hok, -⟩ := (c68_enum (d := badEnum) (bs := []) (ss := []) .nil .nil _).1 h
  simp only [badEnum, List.map_cons, List.map_nil, flat_read] at hf
  obtain rfl := ok_pair hf
  have := (List.pairwise_cons.1 ((variantsOk_iff _ _).1 hok).flatKeys).1 _ List.mem_cons_self (by decide) (by decide)
  exact absurd this (by decide)

/-- `demoLib` with a conversion that, like heck's, leaves out underscores at the start. -/
def snakeLib : SynLib := { demoLib with snake := fun s => s.dropWhile (· == '_') }

/-- C67 does not hold for enums: the derive panics on `enum E { _1 }` and on `enum E { __ }`. -/
theorem c67_variant_name_violated :
    EnumIn.read snakeLib ⟨[⟨(txt "_1", 1), 1, .unit, [], []⟩], []⟩ = .panic ∧
    EnumIn.read snakeLib ⟨[⟨(txt "__", 1), 1, .unit, [], []⟩], []⟩ = .panic :=
  ⟨rfl, rfl⟩

/-- C67: with another name, as in `enum E { #[deluxe(rename = one)] _1 }`, it does not. -/
example : ∃ r, EnumIn.read snakeLib ⟨[⟨(txt "_1", 1), 1, .unit, [],
    [deluxeList [.ident (txt "rename") 2, .punct '=' false 3, .ident (txt "one") 4]]⟩], []⟩ = .ok r :=
  ⟨_, rfl⟩

/-- C67: the hypotheses of `c67_variant` for `_1`. -/
example : ListStreams (deluxeAttrs (⟨(txt "_1", 1), 1, .unit, [], []⟩ : VariantIn).attrs) [] ∧
    ItemsAll VariantSeg [] [] ∧ VariantListOk ⟨(txt "_1", 1), 1, .unit, [], []⟩ [] [] ∧
    ¬ OwnNameOk snakeLib ⟨(txt "_1", 1), 1, .unit, [], []⟩ [] :=
  ⟨.nil, .nil, ⟨List.nodup_nil, by simp, by simp, List.nodup_nil, by simp⟩, fun h =>
    absurd (h rfl (by simp)) (by decide)⟩

/-- C69 does not hold for a transparent variant whose field is the rest: `#[deluxe(transparent)] A { #[deluxe(rest)]
a: T }` is accepted, but then there is no field to parse.  (It is the macro that panics, when it generates the code.) -/
theorem c69_transparent_violated :
    ∃ r, VariantIn.read demoLib ⟨(txt "A", 9), 9, .named,
        [⟨some (txt "a", 1), [deluxeList [.ident (txt "rest") 2]]⟩], [deluxeList [.ident (txt "transparent") 3]]⟩ = .ok r ∧
      ∀ {V : Type} (sem : Nat → FieldSem V) (site : Site V) (pre p : Str) (sp : Span) (s : Stream),
        ((r.toVariant sem).item site pre p sp s).1 = .panic :=
  ⟨_, rfl, fun _ _ _ _ _ _ => rfl⟩

/-- C69: `goodStruct` and `goodEnum` are as syn gives them, and no variant of `goodEnum` is transparent. -/
example : ShapeFits goodStruct.shape goodStruct.fields ∧ (∀ v ∈ goodEnum.variants, ShapeFits v.shape v.fields) ∧
    ∀ r, goodEnum.read demoLib = .ok r → r.TransparentFine ∧ (r.metaCheck Errors.new).toList = [] := by
  refine ⟨fun h => absurd h (by decide), fun v hv h => ?_, fun r h => ?_⟩
  · simp only [goodEnum, List.mem_cons, List.not_mem_nil, or_false] at hv
    rcases hv with rfl | rfl <;> exact absurd h (by decide)
  · obtain ⟨vs, hf, -, -, rfl⟩ := (c68_enum (d := goodEnum) (bs := []) (ss := []) .nil .nil _).1 h
    simp only [goodEnum, List.map_cons, List.map_nil, flat_read, byName_read "A" "a" 8 1 (by decide)] at hf
    obtain rfl := ok_pair hf
    refine ⟨fun v hv ht => ?_, by rfl⟩
    simp only [declaredEnum, List.mem_cons, List.not_mem_nil, or_false] at hv
    rcases hv with rfl | rfl <;> cases ht

end Deluxe
