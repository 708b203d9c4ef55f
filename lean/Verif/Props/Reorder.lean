import Verif.Lemmas.PickDict
import Verif.Props.Defs
/-!
# C101: the order of the fields in a definition does not matter; C102: a skipped field is as if it was not written

Items of a named structure are found by their key, so the order in which the fields are declared should not matter for
what can be written.  The theorems compare a definition with the one whose fields are rearranged.  A skipped field
(macros/lib.rs, `skip`) gets a default whatever is written, so the rest of the value should be read as if the field was
not there.  Both are cases of selecting fields by their positions: all of them in another order, or the parsed ones.
-/
namespace Deluxe

variable {V : Type}

section
variable [Env] {idx : List Nat} {d : StructDef V} {thens : List (List V → Except SynErr (List V))}

omit [Env] in
theorem Picks.of_perm {fields : List (Field V)} (h : idx.Perm (List.range fields.length)) : Picks idx fields where
  nodup := h.nodup_iff.2 List.nodup_range
  lt i hi := by simpa using h.mem_iff.1 hi
  parsed i f hf _ := h.mem_iff.2 (by simpa using (List.getElem?_eq_some_iff.1 hf).1)

omit [Env] in
theorem all_picked {fields : List (Field V)} (h : idx.Perm (List.range fields.length)) {i : Nat} {f : Field V}
    (hf : fields[i]? = some f) : i ∈ idx :=
  h.mem_iff.2 (by simpa using (List.getElem?_eq_some_iff.1 hf).1)

omit [Env] in
/-- Rearranging makes a permutation. -/
theorem select_perm {α : Type} {l : List α} (h : idx.Perm (List.range l.length)) : (select idx l).Perm l := by
  refine (h.filterMap _).trans (.of_eq ?_)
  apply List.ext_getElem?
  intro i
  change (select (List.range l.length) l)[i]? = l[i]?
  rw [select_get (by simp)]
  by_cases hi : i < l.length
  · rw [List.getElem?_range hi]; rfl
  · rw [List.getElem?_eq_none (by simpa using hi), List.getElem?_eq_none (by simpa using hi)]; rfl

omit [Env] in
theorem any_perm {α : Type} {l l' : List α} (h : l.Perm l') (p : α → Bool) : l.any p = l'.any p := by
  rw [Bool.eq_iff_iff, List.any_eq_true, List.any_eq_true]
  exact ⟨fun ⟨x, hx, hp⟩ => ⟨x, h.mem_iff.1 hx, hp⟩, fun ⟨x, hx, hp⟩ => ⟨x, h.mem_iff.2 hx, hp⟩⟩

omit [Env] in
theorem acceptsAll_perm {fields : List (Field V)} (h : idx.Perm (List.range fields.length)) :
    Field.acceptsAll fields = Field.acceptsAll (select idx fields) := by
  unfold Field.acceptsAll
  rw [any_perm (select_perm h), any_perm (select_perm h)]

omit [Env] in
theorem StructDef.FieldsFine.good (hg : d.FieldsFine) (hs : d.shape = .named) : FieldsGood d.fields :=
  ⟨fun f hf _ n sp => (hg.item f hf).named n sp, fun f hf => (hg.item f hf).missing, hg.flat hs⟩

/-- The `and_then` functions do the same with the rearranged value. -/
def ThensMove (idx : List Nat) (d : StructDef V) (thens : List (List V → Except SynErr (List V))) : Prop :=
  ∀ vs : List V, vs.length = d.fields.length → Res.Rel (fun a b => b = select idx a) (runAndThens d.andThens (.ok vs))
    (runAndThens thens (.ok (select idx vs)))

/-- C101: a flattened structure accepts the same input, with the same values for the same fields, if its fields are
declared in another order.  Its flat fields may be of any kind; a `rest` field is to look only at which names belong to
other fields, as those of this crate do (`c101_rest`). -/
theorem c101_flattened (hp : idx.Perm (List.range d.fields.length)) (ha : d.Accepted) (hg : d.FieldsFine)
    (hs : d.shape = .named) (ht : d.isTransparent = false) (ho : OneOwner d.fields) (hn : NamesOnly d.fields)
    (hth : ThensMove idx d thens) (mode : Mode) (pre : Str) (validate : Bool) {l : List Stream}
    (hl : ∀ s ∈ l, s.unexp = none) :
    Res.Rel (fun vs ws => ws = select idx vs) (d.flatNamed.parse mode pre validate l).1
      ((d.select idx thens).flatNamed.parse mode pre validate l).1 :=
  (Picks.of_perm hp).flatNamed ha.fields ht (hg.good hs) ho hn _ (fun vs _ h => h.2.1 ▸ hth vs h.1)
    (fun _ _ hf hi => absurd (all_picked hp hf) hi) mode pre validate (.inl hl)

/-- C101: if it refuses the input, the messages are the same in some order, up to the names that are suggested. -/
theorem c101_messages (hp : idx.Perm (List.range d.fields.length)) (ha : d.Accepted) (hg : d.FieldsFine)
    (hs : d.shape = .named) (ht : d.isTransparent = false) (ho : OneOwner d.fields) (hn : NamesOnly d.fields)
    (h1 : d.andThens = []) (h2 : thens = []) (mode : Mode) (pre : Str) (validate : Bool) {l : List Stream}
    (hl : ∀ s ∈ l, s.unexp = none) {e : SynErr} (he : (d.flatNamed.parse mode pre validate l).1 = .err e) :
    ∃ e', ((d.select idx thens).flatNamed.parse mode pre validate l).1 = .err e' ∧
      (e.toList.map Msg.plain).Perm (e'.toList.map Msg.plain) := by
  have hk := Picks.of_perm hp
  obtain ⟨msgs, msgs', h3, h4, h5, h6, h7⟩ := hk.err (d := d.data) ha.fields ht (hg.good hs) ho hn hk.fieldNames
    mode pre validate (.inl hl) fun _ _ hf hi => absurd (all_picked hp hf) hi
  subst h2
  simp only [StructDef.flatNamed, M.mapRes, hk.data, h1] at he ⊢
  have hid : ∀ r : Res (List V), runAndThens [] r = r := by intro r; cases r <;> rfl
  have hid' : ((d.select idx []).andThens) = [] := rfl
  rw [hid] at he
  rw [hid', hid]
  by_cases hm : msgs = []
  · obtain ⟨vs, hv⟩ := h5 hm
    rw [hv] at he
    cases he
  · have hm' : msgs' ≠ [] := by
      rintro rfl
      have := h3.length_eq
      simp only [List.length_map, List.length_nil] at this
      exact hm (List.eq_nil_of_length_eq_zero this)
    obtain ⟨x, hx, hx'⟩ := h4 hm
    obtain ⟨y, hy, hy'⟩ := h6 hm'
    rw [hx] at he
    cases he
    exact ⟨y, hy, by rw [hx', hy']; exact h3⟩

/-- C101: a structure without flat fields is read in the same way in every form, and as a missing item, and leaves the
same input. -/
theorem c101_item (hp : idx.Perm (List.range d.fields.length)) (ha : d.Accepted) (hg : d.FieldsFine)
    (hs : d.shape = .named) (ht : d.isTransparent = false) (ho : OneOwner d.fields) (hn : NamesOnly d.fields)
    (hf : ∀ f ∈ d.fields, f.flatParsable = false) (hth : ThensMove idx d thens) :
    d.dict.Rel (fun vs ws => ws = select idx vs) (d.select idx thens).dict ∧
      ∀ name sp, Res.Rel (fun vs ws => ws = select idx vs) (d.missing name sp) ((d.select idx thens).missing name sp) := by
  refine ⟨(Picks.of_perm hp).dict hs ha.fields ht (hg.good hs) ho hn hf _ (fun vs _ h => h.2.1 ▸ hth vs h.1)
    (fun _ _ hf hi => absurd (all_picked hp hf) hi) (acceptsAll_perm hp), fun name sp => ?_⟩
  simp only [StructDef.missing, StructDef.select]
  cases d.default with
  | none => exact .err
  | some v => exact .ok rfl

variable {O : Type}

/-- C101: so are the attributes of an object. -/
theorem c101_attributes (hp : idx.Perm (List.range d.fields.length)) (ha : d.AttrAccepted) (hg : d.FieldsFine)
    (hs : d.shape = .named) (ht : d.isTransparent = false) (ho : OneOwner d.fields) (hn : NamesOnly d.fields)
    (hf : ∀ f ∈ d.fields, f.flatParsable = false) (hth : ThensMove idx d thens) (attributes : List (List Str))
    (h : HasAttrs O) (container : O → V) (o : O) :
    Res.Rel (fun vs ws => ws = select idx vs) ((d.attrTarget attributes).parseAttributes h container o)
        (((d.select idx thens).attrTarget attributes).parseAttributes h container o) ∧
      Res.Rel (fun vs ws => ws = select idx vs) ((d.attrTarget attributes).extractAttributes h container o).1
        (((d.select idx thens).attrTarget attributes).extractAttributes h container o).1 ∧
      ((d.attrTarget attributes).extractAttributes h container o).2 =
        (((d.select idx thens).attrTarget attributes).extractAttributes h container o).2 := by
  have key := fun obj toks => (Picks.of_perm hp).attributes (thens := thens) hs (fun ⟨o, n⟩ hx => by
      cases o with
      | none => cases hx
      | some x => exact ha.data x n) ht (hg.good hs) ho hn hf
    (fun vs ws => ws = select idx vs) obj (fun _ vs _ h => h.2.1 ▸ hth vs h.1)
    (fun _ _ _ hf hi => absurd (all_picked hp hf) hi) (acceptsAll_perm hp) attributes toks
  refine ⟨key _ _, ?_⟩
  unfold AttrTarget.extractAttributes
  cases h.attrsMut o with
  | error e => exact ⟨.err, rfl⟩
  | ok x => exact ⟨key _ _, rfl⟩

/-- C101: the `rest` implementation for maps looks only at which names there are. -/
theorem c101_rest {κ ν : Type} [DecidableEq κ] (kd : Dict κ) (keyStr : κ → Str) (vd : Dict ν) {names names' : List Str}
    (h : ∀ n, n ∈ names ↔ n ∈ names') : mapRest kd keyStr vd names = mapRest kd keyStr vd names' := by
  have e : restStep kd keyStr vd names = restStep kd keyStr vd names' := by
    funext ⟨acc, s⟩
    have hc : ∀ k, names.contains k = names'.contains k := by
      intro k
      rw [Bool.eq_iff_iff, List.contains_iff_mem, List.contains_iff_mem]
      exact h k
    simp only [restStep, hc]
  unfold mapRest
  rw [e]

end

/-! ## Definitions -/

section
variable [Env] {idx : List Nat}

omit [Env] in
theorem select_map {α β : Type} (f : α → β) (l : List α) : select idx (l.map f) = (select idx l).map f := by
  unfold select
  rw [List.map_filterMap]
  congr 1
  funext i
  rw [List.getElem?_map]

omit [Env] in
theorem Errors.nil_alike {e e' : Errors} (h : e.Alike e') : e.toList = [] ↔ e'.toList = [] := by
  unfold Errors.Alike Errors.isEmpty at h
  unfold Errors.toList
  cases h1 : e.inner <;> cases h2 : e'.inner <;> simp [h1, h2, SynErr.toList] at h ⊢

omit [Env] in
theorem slotItem_rel {κ α : Type} (get : κ → FieldStatus α) (put : FieldStatus α → κ → κ) {func func' : M Stream α}
    (h : func.Alike func') (name : Str) (span : Span) :
    StepRel AccAlike (slotItem get put func name span) (slotItem get put func' name span) := by
  rintro ⟨k, e⟩ ⟨k', e'⟩ s ⟨hk, he⟩
  dsimp only at hk he
  subst hk
  simp only [slotItem, FieldStatus.parseNamedItemWith]
  have := h s
  generalize func s = a at this ⊢
  generalize func' s = b at this ⊢
  obtain ⟨a, la⟩ := a
  obtain ⟨b, lb⟩ := b
  obtain ⟨hab, hl⟩ := this
  simp only at hab hl
  subst hl
  have hd : (if (get k).isNone = true then e else e.push span (.duplicateAttr name)).Alike
      (if (get k).isNone = true then e' else e'.push span (.duplicateAttr name)) := by
    split
    · exact he
    · exact Errors.pushSyn_alike _ _ _ _
  cases hab with
  | ok h => subst h; exact ⟨.ok rfl, ⟨rfl, hd⟩, rfl⟩
  | err => exact ⟨.ok rfl, ⟨rfl, Errors.pushSyn_alike _ _ _ _⟩, rfl⟩
  | panic => exact ⟨.panic, ⟨rfl, hd⟩, rfl⟩

omit [Env] in
theorem pushItem_rel {κ α : Type} (item : M Stream α) (put : κ → α → κ) :
    StepRel AccAlike (pushItem item put) (pushItem item put) := by
  rintro ⟨k, e⟩ ⟨k', e'⟩ s ⟨hk, he⟩
  dsimp only at hk he
  subst hk
  simp only [pushItem, stepPush]
  cases item s with
  | mk r s' =>
    cases r with
    | ok a => exact ⟨.ok rfl, ⟨rfl, he⟩, rfl⟩
    | err x => exact ⟨.ok rfl, ⟨rfl, Errors.pushSyn_alike _ _ _ _⟩, rfl⟩
    | panic => exact ⟨.panic, ⟨rfl, he⟩, rfl⟩

omit [Env] in
theorem refuse_rel {κ : Type} (text : Text) (span : Span) :
    StepRel (AccAlike (κ := κ)) (refuse text span) (refuse text span) := by
  rintro ⟨k, e⟩ ⟨k', e'⟩ s ⟨hk, he⟩
  exact ⟨.ok rfl, ⟨hk, Errors.pushSyn_alike _ _ _ _⟩, rfl⟩

omit [Env] in
/-- Whether `transparent` is refused does not depend on the order of the fields. -/
theorem transparentRefusal_perm (what : Str) {fields fields' : List FieldDecl} (h : fields.Perm fields') :
    (transparentRefusal what fields).isNone = (transparentRefusal what fields').isNone := by
  have hp := h.filter (·.isParsable)
  unfold transparentRefusal
  generalize fields.filter (·.isParsable) = l at hp
  generalize fields'.filter (·.isParsable) = l' at hp
  have hlen := hp.length_eq
  cases l with
  | nil => cases l' with
    | nil => rfl
    | cons b l' => cases hlen
  | cons a l => cases l' with
    | nil => cases hlen
    | cons b l' =>
      cases l with
      | nil =>
        cases l' with
        | nil =>
          have := List.singleton_perm_singleton.1 hp
          rw [this]
        | cons c l' => cases hlen
      | cons c l =>
        cases l' with
        | nil => cases hlen
        | cons c' l' =>
          have hsome : ∀ (x y : Bool) (m1 m2 m3 : Str), (if x = true then some m1 else if y = true then some m2
              else if (false = true) then none else some m3).isNone = false := by
            intro x y m1 m2 m3
            cases x <;> cases y <;> rfl
          exact (hsome _ _ _ _ _).trans (hsome _ _ _ _ _).symm

theorem structStep_rel (lib : SynLib) (shape : Shape) {fields fields' : List FieldDecl} (h : fields.Perm fields')
    (p : Str) (sp : Span) : StepRel AccAlike (structStep lib shape fields p sp) (structStep lib shape fields' p sp) := by
  unfold structStep
  split
  · refine slotItem_rel _ _ ?_ _ _
    unfold transparentItem
    have := transparentRefusal_perm (txt "struct") h
    cases h1 : transparentRefusal (txt "struct") fields <;> cases h2 : transparentRefusal (txt "struct") fields' <;>
      simp [h1, h2] at this
    · exact .refl _
    · exact fun s => ⟨.err, rfl⟩
  · split
    · exact refuse_rel _ _
    · exact slotItem_rel _ _ (.refl _) _ _
  · split
    · exact refuse_rel _ _
    · exact slotItem_rel _ _ (.refl _) _ _
  · exact slotItem_rel _ _ (.refl _) _ _
  · exact pushItem_rel _ _
  · exact pushItem_rel _ _
  · rintro ⟨k, e⟩ ⟨k', e'⟩ s ⟨hk, he⟩
    exact ⟨.ok rfl, ⟨hk, checkUnknown_alike _ _ _ he⟩, rfl⟩

/-- The declaration with rearranged fields. -/
def StructDecl.reorder (idx : List Nat) (r : StructDecl) : StructDecl := { r with fields := select idx r.fields }

theorem structBody_rel (lib : SynLib) {d : StructIn} (hs : d.shape ≠ .unnamed)
    (hp : idx.Perm (List.range d.fields.length)) {ds : List FieldDecl} (hf : d.fields.map (FieldIn.read lib) = ds.map .ok) :
    (structBody lib d).Rel (fun r r' => r' = r.reorder idx) (structBody lib { d with fields := select idx d.fields }) := by
  have hlen : ds.length = d.fields.length := by simpa using (congrArg List.length hf).symm
  have hf' : (select idx d.fields).map (FieldIn.read lib) = (select idx ds).map .ok := by
    rw [← select_map, ← select_map, hf]
  have hperm : ds.Perm (select idx ds) := (select_perm (hlen ▸ hp)).symm
  intro l
  simp only [structBody, readFields_ok_of _ hf, readFields_ok_of _ hf', collectStruct]
  have hr := parseStruct_rel (structStep_rel lib d.shape hperm) l ⟨{}, Errors.new⟩ ⟨{}, Errors.new⟩ ⟨rfl, .refl _⟩
  generalize parseStruct (structStep lib d.shape ds) (⟨{}, Errors.new⟩, l) = a at hr ⊢
  generalize parseStruct (structStep lib d.shape (select idx ds)) (⟨{}, Errors.new⟩, l) = b at hr ⊢
  obtain ⟨a, ⟨ka, ea⟩, la⟩ := a
  obtain ⟨b, ⟨kb, eb⟩, lb⟩ := b
  obtain ⟨h1, ⟨h2, h3⟩, h4⟩ := hr
  dsimp only at h1 h2 h3 h4
  subst h2
  subst h4
  have key : ∀ e e' : Errors, e.Alike e' → Res.Rel (fun r r' => r' = r.reorder idx)
      ((structDone d.shape ds ⟨ka, e⟩).1.intoResult (structDone d.shape ds ⟨ka, e⟩).2)
      ((structDone d.shape (select idx ds) ⟨ka, e'⟩).1.intoResult (structDone d.shape (select idx ds) ⟨ka, e'⟩).2) := by
    intro e e' he
    have e2 : (structDone d.shape (select idx ds) ⟨ka, e'⟩).2 = (structDone d.shape ds ⟨ka, e⟩).2.reorder idx := by
      unfold structDone StructDecl.reorder
      dsimp only
      split
      · rw [select_map]
      · rfl
    have hp2 : (structDone d.shape ds ⟨ka, e⟩).2.fields.Perm (structDone d.shape (select idx ds) ⟨ka, e'⟩).2.fields := by
      rw [e2]
      refine (select_perm ?_).symm
      have : (structDone d.shape ds ⟨ka, e⟩).2.fields.length = ds.length := by
        unfold structDone
        dsimp only
        split <;> simp
      rw [this, hlen]
      exact hp
    have hn : (structDone d.shape ds ⟨ka, e⟩).1.toList = [] ↔ (structDone d.shape (select idx ds) ⟨ka, e'⟩).1.toList = [] := by
      rw [structDone_nil, structDone_nil]
      have q1 : (declNames (structDone d.shape ds ⟨ka, e⟩).2.fields).Nodup ↔
          (declNames (structDone d.shape (select idx ds) ⟨ka, e'⟩).2.fields).Nodup :=
        (hp2.flatMap_right _).nodup_iff
      have q2 := hp2.countP_eq (·.container.isSome)
      rw [Errors.nil_alike he, q1, q2]
      simp only [hs, false_imp_iff, and_true]
    generalize structDone d.shape ds ⟨ka, e⟩ = x at e2 hn
    generalize structDone d.shape (select idx ds) ⟨ka, e'⟩ = y at e2 hn
    obtain ⟨⟨x1⟩, x2⟩ := x
    obtain ⟨⟨y1⟩, y2⟩ := y
    cases x1 <;> cases y1 <;> simp [Errors.toList, SynErr.toList, Errors.intoResult] at hn e2 ⊢
    · exact .ok e2
    · exact .err
  cases h1 with
  | ok _ => exact ⟨key _ _ h3, rfl⟩
  | err => exact ⟨key _ _ (Errors.pushSyn_alike _ _ _ _), rfl⟩
  | panic => exact ⟨.panic, rfl⟩

/-- C101: the derive accepts the definition of a named structure exactly if it accepts it with the fields in another
order, and reads the same of every field. -/
theorem c101_definition {lib : SynLib} {d : StructIn} (hs : d.shape ≠ .unnamed)
    (hp : idx.Perm (List.range d.fields.length)) :
    (∀ r, d.read lib = .ok r → StructIn.read lib { d with fields := select idx d.fields } = .ok (r.reorder idx)) ∧
      ∀ r', StructIn.read lib { d with fields := select idx d.fields } = .ok r' →
        ∃ r, d.read lib = .ok r ∧ r' = r.reorder idx := by
  have key : ∀ ds : List FieldDecl, d.fields.map (FieldIn.read lib) = ds.map .ok →
      Res.Rel (fun r r' => r' = r.reorder idx) (d.read lib) (StructIn.read lib { d with fields := select idx d.fields }) :=
    fun ds hf => parseStructAttrTokens_rel (fun _ => structBody_rel lib hs hp hf) _
  constructor
  · intro r h
    obtain ⟨ds, -, hf, -⟩ := StructIn.read_ok h
    have := key ds hf
    rw [h] at this
    generalize StructIn.read lib { d with fields := select idx d.fields } = x at this
    cases this with
    | ok h => rw [h]
  · intro r' h
    obtain ⟨ds', -, hf', -⟩ := StructIn.read_ok h
    have hall : ∀ f ∈ d.fields, ∃ x, FieldIn.read lib f = .ok x := by
      intro f hf
      have hf := (select_perm hp).mem_iff.2 hf
      have : FieldIn.read lib f ∈ ds'.map .ok := by
        rw [← hf']
        exact List.mem_map_of_mem hf
      obtain ⟨x, -, hx⟩ := List.mem_map.1 this
      exact ⟨x, hx.symm⟩
    have : ∃ ds : List FieldDecl, d.fields.map (FieldIn.read lib) = ds.map .ok := by
      clear hp key h hf'
      generalize d.fields = fs at hall
      induction fs with
      | nil => exact ⟨[], rfl⟩
      | cons f fs ih =>
        obtain ⟨x, hx⟩ := hall f List.mem_cons_self
        obtain ⟨ds, hds⟩ := ih fun g hg => hall g (List.mem_cons_of_mem _ hg)
        exact ⟨x :: ds, by simp [hx, hds]⟩
    obtain ⟨ds, hf⟩ := this
    have := key ds hf
    rw [h] at this
    generalize d.read lib = x at this
    cases this with
    | ok h => exact ⟨_, rfl, h⟩

/-- The meanings of the fields and of the default are moved with the fields. -/
structure SemMove (idx : List Nat) (sem sem' : StructSem V) : Prop where
  field : ∀ (j i : Nat), idx[j]? = some i → sem'.field j = sem.field i
  default : ∀ x, sem'.default x = select idx (sem.default x)

omit [Env] in
/-- C101: the code generated for the rearranged definition is that of the rearranged structure. -/
theorem c101_meaning {r : StructDecl} (hp : idx.Perm (List.range r.fields.length)) {sem sem' : StructSem V}
    (h : SemMove idx sem sem') :
    (r.reorder idx).toDef sem' = (r.toDef sem).select idx (r.andThens.map sem'.andThen) := by
  have hlt : ∀ i ∈ idx, i < r.fields.length := fun i hi => by simpa using hp.mem_iff.1 hi
  have e1 : (select idx r.fields).zipIdx.map (fun x => x.1.toField (sem'.field x.2)) =
      select idx (r.fields.zipIdx.map fun x => x.1.toField (sem.field x.2)) := by
    apply List.ext_getElem?
    intro j
    rw [select_get (by simpa using hlt)]
    simp only [List.getElem?_map, List.getElem?_zipIdx, Option.map_map, select_get hlt]
    cases hj : idx[j]? with
    | none => rfl
    | some i =>
      simp only [Option.bind_some]
      cases r.fields[i]? with
      | none => rfl
      | some f => simp [h.field j i hj]
  have e2 : r.default.map sem'.default = (r.default.map sem.default).map (select idx) := by
    cases r.default with
    | none => rfl
    | some x => simp [h.default]
  simp only [StructDecl.reorder, StructDecl.toDef, StructDef.select, e1, e2]

/-- C101: and in an accepted definition no key belongs to two fields. -/
theorem c101_one_owner {lib : SynLib} {d : StructIn} {r : StructDecl} (h : d.read lib = .ok r) (sem : StructSem V) :
    OneOwner (r.toDef sem).fields := fun _ _ _ _ _ hf hg hpf _ hk hk' =>
  ((c46_one_field (pre := []) h sem hf hpf hk).2 _ _ hg hk').symm

omit [Env] in
/-- C101: likewise for the `ParseMetaItem` derive. -/
theorem c101_meaning_meta {r : StructDecl} (hp : idx.Perm (List.range r.fields.length)) {sem sem' : StructSem V}
    (h : SemMove idx sem sem') :
    (r.reorder idx).toMetaDef sem' = (r.toMetaDef sem).select idx (r.andThens.map sem'.andThen) := by
  have := c101_meaning (r := { r with fields := r.fields.map fillContainer }) (by simpa using hp) h
  simpa only [StructDecl.reorder, StructDecl.toMetaDef, select_map] using this

end

/-! ## Skipped fields -/

section
variable [Env] {idx : List Nat} {d : StructDef V} {O : Type}

/-- No field that is left out is marked as `rest` or `flatten`. -/
def LeftPlain (idx : List Nat) (fields : List (Field V)) : Prop :=
  ∀ (i : Nat) f, fields[i]? = some f → i ∉ idx → f.rest.getD false = false ∧ f.isFlatten = false

omit [Env] in
theorem any_select {fields : List (Field V)} (p : Field V → Bool)
    (h : ∀ (i : Nat) f, fields[i]? = some f → i ∉ idx → p f = false) : fields.any p = (select idx fields).any p := by
  rw [Bool.eq_iff_iff, List.any_eq_true, List.any_eq_true]
  constructor
  · rintro ⟨f, hf, hpf⟩
    obtain ⟨i, hi⟩ := List.getElem?_of_mem hf
    have : i ∈ idx := Classical.byContradiction fun hn => by rw [h i f hi hn] at hpf; cases hpf
    exact ⟨f, List.mem_filterMap.2 ⟨i, this, hi⟩, hpf⟩
  · rintro ⟨f, hf, hpf⟩
    exact ⟨f, select_mem hf, hpf⟩

omit [Env] in
theorem LeftPlain.acceptsAll {fields : List (Field V)} (h : LeftPlain idx fields) :
    Field.acceptsAll fields = Field.acceptsAll (select idx fields) := by
  unfold Field.acceptsAll
  rw [any_select (fields := fields) _ fun i f hf hi => (h i f hf hi).1,
    any_select (fields := fields) _ fun i f hf hi => by rw [(h i f hf hi).2]; rfl]

omit [Env] in
theorem then_nil {f : Fields V} (h : d.andThens = []) (vs ws : List V) (hr : Restores idx f vs ws) :
    Res.Rel (Restores idx f) (runAndThens d.andThens (.ok vs)) (runAndThens [] (.ok ws)) := by
  rw [h]
  exact .ok hr

/-- C102: a flattened structure is read as if the fields that are not parsed were not written, and those have the value
that they always have; also any flat fields may be there. -/
theorem c102_flattened (hp : Picks idx d.fields) (ha : d.Accepted) (hg : d.FieldsFine) (hs : d.shape = .named)
    (ht : d.isTransparent = false) (ho : OneOwner d.fields) (hn : NamesOnly d.fields) (h1 : d.andThens = [])
    (hu : ∀ (i : Nat) f, d.fields[i]? = some f → i ∉ idx → ∃ v, Unparsed d.data f i v) (mode : Mode) (pre : Str)
    (validate : Bool) {l : List Stream} (hl : ∀ s ∈ l, s.unexp = none) :
    Res.Rel (Restores idx d.data) (d.flatNamed.parse mode pre validate l).1
      ((d.select idx []).flatNamed.parse mode pre validate l).1 :=
  hp.flatNamed ha.fields ht (hg.good hs) ho hn _ (then_nil h1) hu mode pre validate (.inl hl)

/-- C102: so is a structure without flat fields that is an item, if the fields that are left out are not marked as
`rest` or `flatten` besides.  It leaves the same input. -/
theorem c102_item_partial (hp : Picks idx d.fields) (ha : d.Accepted) (hg : d.FieldsFine) (hs : d.shape = .named)
    (ht : d.isTransparent = false) (ho : OneOwner d.fields) (hn : NamesOnly d.fields)
    (hf : ∀ f ∈ d.fields, f.flatParsable = false) (h1 : d.andThens = []) (hm : LeftPlain idx d.fields)
    (hu : ∀ (i : Nat) f, d.fields[i]? = some f → i ∉ idx → ∃ v, Unparsed d.data f i v) :
    d.dict.Rel (Restores idx d.data) (d.select idx []).dict :=
  hp.dict hs ha.fields ht (hg.good hs) ho hn hf _ (then_nil h1) hu hm.acceptsAll

/-- C102: and so are the attributes of an object; a container field that is left out holds the container. -/
theorem c102_attributes_partial (hp : Picks idx d.fields) (ha : d.AttrAccepted) (hg : d.FieldsFine) (hs : d.shape = .named)
    (ht : d.isTransparent = false) (ho : OneOwner d.fields) (hn : NamesOnly d.fields)
    (hf : ∀ f ∈ d.fields, f.flatParsable = false) (h1 : d.andThens = []) (hm : LeftPlain idx d.fields)
    (attributes : List (List Str)) (h : HasAttrs O) (container : O → V) (o : O)
    (hu : ∀ (i : Nat) f, d.fields[i]? = some f → i ∉ idx →
      ∃ v, Unparsed (d.attrData ⟨some (container o), none⟩) f i v) :
    Res.Rel (Restores idx (d.attrData ⟨some (container o), none⟩))
      ((d.attrTarget attributes).parseAttributes h container o)
      (((d.select idx []).attrTarget attributes).parseAttributes h container o) :=
  hp.attributes (thens := []) hs (fun ⟨o, n⟩ hx => by
      cases o with
      | none => cases hx
      | some x => exact ha.data x n) ht (hg.good hs) ho hn hf _ _
    (fun _ vs ws hr => then_nil h1 vs ws hr) (fun _ => hu) hm.acceptsAll attributes _

omit [Env] in
/-- C102: the fields that are parsed, in their order, are such a selection. -/
theorem c102_parsed (fields : List (Field V)) :
    Picks ((List.range fields.length).filter fun i => (fields[i]?).any (·.isParsable)) fields where
  nodup := List.nodup_range.filter _
  lt i hi := by simpa using (List.mem_filter.1 hi).1
  parsed i f hf hp := by
    refine List.mem_filter.2 ⟨?_, by simp [hf, hp]⟩
    simpa using (List.getElem?_eq_some_iff.1 hf).1

end

/-! ## Where the order and skipped fields matter, and examples -/

/-- `struct { a: bool, b: bool }` with the fields in either order. -/
def twoNamed (a b : String) : StructDef Bool :=
  ⟨.named, [plainField a.toList boolDict, plainField b.toList boolDict], none, none, none, []⟩

/-- C101 does not hold for suggestions: of names that are equally similar the one declared first is suggested. -/
theorem c101_suggestion_violated : letI : Env := ⟨fun _ _ => none, fun _ _ => 1, 0⟩
    (∃ e, ((twoNamed "a" "b").dict.inline .unnamed [⟨[.ident ['c'] 1], 0, none⟩]).1 = .err e ∧
      e.toList.head? = some ⟨1, .unknownField ['c'] (some ['a'])⟩) ∧
    (∃ e, (((twoNamed "a" "b").select [1, 0] []).dict.inline .unnamed [⟨[.ident ['c'] 1], 0, none⟩]).1 = .err e ∧
      e.toList.head? = some ⟨1, .unknownField ['c'] (some ['b'])⟩) :=
  ⟨⟨_, rfl, rfl⟩, _, rfl, rfl⟩

section
variable [Env]

/-- `#[deluxe(skip, rest)] a: bool` -/
def skippedRest : StructDef Bool :=
  ⟨.named, [{ plainField ['a'] boolDict with skip := some true, rest := some true, default := some false }], none, none,
    none, []⟩

/-- C102 does not hold for a field with `skip` and `rest`, which the derive accepts: nothing is stored in the field,
but any key is accepted; without the field it is refused. -/
theorem c102_rest_violated :
    (∃ d, FieldIn.read demoLib ⟨some (txt "a", 9), [deluxeList [.ident (txt "skip") 2, .punct ',' false 3,
      .ident (txt "rest") 4]]⟩ = .ok d ∧ d.isSkipped = true ∧ d.rest.isSome = true) ∧
    Picks [] skippedRest.fields ∧
    (skippedRest.dict.inline .unnamed [⟨[.ident ['x'] 1], 0, none⟩]).1 = .ok [false] ∧
    ∃ e, ((skippedRest.select [] []).dict.inline .unnamed [⟨[.ident ['x'] 1], 0, none⟩]).1 = .err e := by
  refine ⟨⟨_, rfl, rfl, rfl⟩, ⟨List.nodup_nil, by simp, ?_⟩, rfl, _, rfl⟩
  intro i f hf hp
  cases i with
  | zero => cases hf; cases hp
  | succ i => cases hf

/-- `struct { a: bool, #[deluxe(skip)] s: bool, b: bool }` -/
def oneSkipped : StructDef Bool :=
  ⟨.named, [plainField ['a'] boolDict, { plainField ['s'] boolDict with skip := some true, default := some false },
    plainField ['b'] boolDict], none, none, none, []⟩

omit [Env] in
theorem oneSkipped_owner : OneOwner oneSkipped.fields := by
  intro i j f g k hf hg hpf hpg hk hk'
  match i, j with
  | 0, 0 | 2, 2 => rfl
  | 0, 2 => cases hf; cases hg; simp [plainField] at hk hk'; rw [hk] at hk'; cases hk'
  | 2, 0 => cases hf; cases hg; simp [plainField] at hk hk'; rw [hk] at hk'; cases hk'
  | 1, _ => cases hf; cases hpf.2
  | _, 1 => cases hg; cases hpg.2
  | n + 3, _ => cases hf
  | _, n + 3 => cases hg

omit [Env] in
theorem oneSkipped_all {p : Field Bool → Prop} : (∀ f ∈ oneSkipped.fields, p f) ↔ p (plainField ['a'] boolDict) ∧
    p { plainField ['s'] boolDict with skip := some true, default := some false } ∧ p (plainField ['b'] boolDict) := by
  simp [oneSkipped]

omit [Env] in
theorem oneSkipped_accepted : oneSkipped.Accepted where
  fields := by
    refine ⟨oneSkipped_all.2 ⟨fun h => ?_, fun _ => .inl rfl, fun h => ?_⟩, fun _ h => ?_⟩
    · cases h
    · cases h
    · cases h
  transparent h := by cases h
  tuple h := by cases h

omit [Env] in
theorem oneSkipped_fine : oneSkipped.FieldsFine where
  item := oneSkipped_all.2 ⟨boolDict_good, boolDict_good, boolDict_good⟩
  flat _ := oneSkipped_all.2 ⟨fun h => (by cases h), fun h => (by cases h), fun h => (by cases h)⟩
  flatUnnamed h := by cases h

/-- C101, C102: the structure meets the hypotheses, for the order `b`, `a`, `s` and for leaving out `s`. -/
example : oneSkipped.Accepted ∧ oneSkipped.AttrAccepted ∧ oneSkipped.FieldsFine ∧ oneSkipped.shape = .named ∧
    oneSkipped.isTransparent = false ∧ OneOwner oneSkipped.fields ∧ NamesOnly oneSkipped.fields ∧
    (∀ f ∈ oneSkipped.fields, f.flatParsable = false) ∧ ThensMove [2, 0, 1] oneSkipped [] ∧
    [2, 0, 1].Perm (List.range oneSkipped.fields.length) ∧ Picks [0, 2] oneSkipped.fields ∧
    LeftPlain [0, 2] oneSkipped.fields ∧
    ∀ (i : Nat) f, oneSkipped.fields[i]? = some f → i ∉ [0, 2] → ∃ v, Unparsed oneSkipped.data f i v := by
  have hleft : ∀ (i : Nat) f, oneSkipped.fields[i]? = some f → i ∉ [0, 2] →
      f = { plainField ['s'] boolDict with skip := some true, default := some false } := by
    intro i f hf hi
    match i with
    | 0 => simp at hi
    | 1 => cases hf; rfl
    | 2 => simp at hi
    | n + 3 => cases hf
  refine ⟨oneSkipped_accepted, ⟨oneSkipped_all.2 ⟨fun h => ?_, fun _ => .inl rfl, fun h => ?_⟩, fun _ h => ?_,
    oneSkipped_accepted.transparent, oneSkipped_accepted.tuple⟩, oneSkipped_fine, rfl, rfl, oneSkipped_owner,
    oneSkipped_all.2 ⟨fun _ _ _ => rfl, fun _ _ _ => rfl, fun _ _ _ => rfl⟩, oneSkipped_all.2 ⟨rfl, rfl, rfl⟩,
    fun vs _ => .ok rfl, by decide, ⟨by decide, by decide, ?_⟩, ?_, ?_⟩
  · cases h
  · cases h
  · cases h
  · intro i f hf hp
    refine Classical.byContradiction fun hi => ?_
    rw [hleft i f hf hi] at hp
    cases hp
  · intro i f hf hi
    rw [hleft i f hf hi]
    exact ⟨rfl, rfl⟩
  · intro i f hf hi
    rw [hleft i f hf hi]
    refine ⟨false, .inl ⟨false, .inr ⟨fun h => ?_, rfl⟩, rfl⟩⟩
    cases h.1

/-- C101, C102: `a, b = false` in either order and with the field `s` or without it. -/
example :
    (oneSkipped.dict.inline .unnamed [⟨[.ident ['a'] 1, .punct ',' false 2, .ident ['b'] 3, .punct '=' false 4,
      .ident "false".toList 5], 0, none⟩]).1 = .ok [true, false, false] ∧
    ((oneSkipped.select [2, 0, 1] []).dict.inline .unnamed [⟨[.ident ['a'] 1, .punct ',' false 2, .ident ['b'] 3,
      .punct '=' false 4, .ident "false".toList 5], 0, none⟩]).1 = .ok [false, true, false] ∧
    ((oneSkipped.select [0, 2] []).dict.inline .unnamed [⟨[.ident ['a'] 1, .punct ',' false 2, .ident ['b'] 3,
      .punct '=' false 4, .ident "false".toList 5], 0, none⟩]).1 = .ok [true, false] := ⟨rfl, rfl, rfl⟩

/-- C101: the derive accepts `a: T, b: T`, so by `c101_definition` it accepts `b: T, a: T`. -/
example : ∃ r, StructIn.read demoLib ⟨.named, [plainIn "a" 1, plainIn "b" 2], []⟩ = .ok r := by
  refine ⟨_, (c46_struct (d := ⟨.named, [plainIn "a" 1, plainIn "b" 2], []⟩) (bs := []) (ss := []) .nil .nil _).2
    ⟨[declared (plainIn "a" 1) [], declared (plainIn "b" 2) []], ?_, ⟨List.nodup_nil, by simp, by simp, by simp⟩, by decide,
    by unfold OneContainer; decide, fun h => ?_, rfl⟩⟩
  · simp only [List.map_cons, List.map_nil, plainIn_read]
  · cases h

end

end Deluxe
