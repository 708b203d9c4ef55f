import Verif.Lemmas.DefItems
/-!
# Reading the attributes of structures, variants and enums, item by item
-/
namespace Deluxe

/-- An attribute that is fine in a state: not given before unless it may be repeated, with a new name, and fine by
itself. -/
def ValidAt {κ β : Type} (free : κ → β → Bool) (name? : β → Option Str) (idents : κ → List Str) (fine : β → Prop)
    (k : κ) (b : β) : Prop :=
  free k b = true ∧ (∀ n, name? b = some n → n ∉ idents k) ∧ fine b

theorem allValid_generic {κ β : Type} {apply : κ → β → κ} {key : β → String} {rep : List String}
    {free : κ → β → Bool} {name? : β → Option Str} {idents : κ → List Str} {fine : β → Prop}
    (hfree : ∀ k a b, free (apply k a) b = true ↔ free k b = true ∧ (key a = key b → key a ∈ rep))
    (hid : ∀ k a x, x ∈ idents (apply k a) ↔ x ∈ idents k ∨ name? a = some x) (k : κ) (bs : List β) :
    AllValid apply (ValidAt free name? idents fine) k bs ↔
      ((bs.map key).filter (· ∉ rep)).Nodup ∧ (bs.filterMap name?).Nodup ∧ (∀ b ∈ bs, fine b) ∧
        (∀ b ∈ bs, free k b = true) ∧ ∀ b ∈ bs, ∀ n, name? b = some n → n ∉ idents k := by
  induction bs generalizing k with
  | nil => simp [AllValid]
  | cons b bs ih =>
    rw [AllValid, ih]
    constructor
    · rintro ⟨⟨a1, a2, a3⟩, h1, h2, h3, h4, h5⟩
      refine ⟨?_, ?_, List.forall_mem_cons.2 ⟨a3, h3⟩,
        List.forall_mem_cons.2 ⟨a1, fun c hc => ((hfree k b c).1 (h4 c hc)).1⟩,
        List.forall_mem_cons.2 ⟨a2, fun c hc m hm hx => h5 c hc m hm ((hid ..).2 (.inl hx))⟩⟩
      · rw [List.map_cons, List.filter_cons]
        split
        · rename_i hr
          refine List.nodup_cons.2 ⟨fun hm => ?_, h1⟩
          obtain ⟨c, hc, hce⟩ := List.mem_map.1 (List.mem_filter.1 hm).1
          have := ((hfree k b c).1 (h4 c hc)).2 hce.symm
          simp at hr; exact hr this
        · exact h1
      · rw [List.filterMap_cons]
        cases hb : name? b with
        | none => exact h2
        | some n =>
          refine List.nodup_cons.2 ⟨fun hm => ?_, h2⟩
          obtain ⟨c, hc, hcm⟩ := List.mem_filterMap.1 hm
          exact h5 c hc n hcm ((hid ..).2 (.inr hb))
    · rintro ⟨h1, h2, h3, h4, h5⟩
      have hb := List.mem_cons_self (a := b) (l := bs)
      refine ⟨⟨h4 b hb, h5 b hb, h3 b hb⟩, ?_, ?_, fun c hc => h3 c (List.mem_cons_of_mem _ hc), ?_, ?_⟩
      · rw [List.map_cons, List.filter_cons] at h1
        split at h1
        · exact (List.nodup_cons.1 h1).2
        · exact h1
      · rw [List.filterMap_cons] at h2
        split at h2
        · exact h2
        · exact (List.nodup_cons.1 h2).2
      · intro c hc
        refine (hfree k b c).2 ⟨h4 c (List.mem_cons_of_mem _ hc), fun he => ?_⟩
        rw [List.map_cons, List.filter_cons] at h1
        by_cases hr : key b ∈ rep
        · exact hr
        · rw [if_pos (by simpa using hr)] at h1
          refine absurd ?_ (List.nodup_cons.1 h1).1
          exact List.mem_filter.2 ⟨List.mem_map.2 ⟨c, hc, he.symm⟩, by simpa using hr⟩
      · intro c hc m hm hx
        rcases (hid ..).1 hx with hx | hn
        · exact h5 c (List.mem_cons_of_mem _ hc) m hm hx
        · rw [List.filterMap_cons, hn] at h2
          exact absurd (List.mem_filterMap.2 ⟨c, hc, hm⟩) (List.nodup_cons.1 h2).1

/-- A slot is filled by the first attribute with a value for it. -/
theorem fold_slot {κ β α : Type} {apply : κ → β → κ} {slot : κ → FieldStatus α} {val? : β → Option α}
    (h : ∀ k b, slot (apply k b) = match val? b with
      | some x => keepFirst (slot k) x
      | none => slot k) (bs : List β) (k : κ) :
    slot (bs.foldl apply k) = slotPick (slot k) (bs.findSome? val?) := by
  induction bs generalizing k with
  | nil => cases hs : slot k <;> simp [slotPick, FieldStatus.ofOption, hs]
  | cons b bs ih =>
    rw [List.foldl_cons, ih, List.findSome?_cons, h]
    cases val? b with
    | some x => exact slotPick_keep ..
    | none => rfl

theorem slotPick_none {α : Type} (o : Option α) : (slotPick FieldStatus.none o).intoOption = o := by
  cases o <;> rfl

theorem keepFirst_isNone {α : Type} (st : FieldStatus α) (x : α) : (keepFirst st x).isNone = true ↔ False := by
  cases st <;> simp [keepFirst, FieldStatus.isNone]

theorem fillSkipped_eq (f : FieldDecl) : fillSkipped f = withSkipDefault f := by
  unfold fillSkipped withSkipDefault
  cases hs : f.skip with
  | none => cases f; simp_all
  | some sk =>
    cases hv : sk.value <;> cases hd : f.default <;> cases f <;> simp_all

theorem transparentRefusal_none (what : Str) (fields : List FieldDecl) :
    transparentRefusal what fields = none ↔ CanBeTransparent fields := by
  unfold transparentRefusal CanBeTransparent
  cases fields.filter (·.isParsable) with
  | nil => simp
  | cons f rest =>
    cases h1 : f.isFlatten <;> cases h2 : f.isAppend <;> cases rest <;> simp [h1, h2]

variable [Env]

/-- A slot of a definition, in the loop. -/
theorem slot_ok {κ α : Type} {get : κ → FieldStatus α} {put : FieldStatus α → κ → κ} {func : M Stream α}
    {step : Str → Span → M (Acc κ × Stream) Unit} {key : Str} {name : Str} {sp : Span} {v vt rest : List Tok}
    {sc : Span} {x : α} (hk : KeyToks [key] sp v vt) (hr : ReadsFully func vt rest sc x) (hb : Boundary rest)
    (hs : step (keyString [key]) sp = slotItem get put func name sp) (k : κ) (errs : Errors) (u : Option Span)
    (hfree : (get k).isNone = true) :
    keyStep step (⟨k, errs⟩, ⟨v ++ rest, sc, u⟩) = (.ok (), (⟨put (keepFirst (get k) x) k, errs⟩, ⟨rest, sc, u⟩)) := by
  rw [keyStep_key _ hk hb, hs, slotItem_run hr, dupErrs_free hfree]

theorem slot_bad {κ α : Type} {get : κ → FieldStatus α} {put : FieldStatus α → κ → κ} {func : M Stream α}
    {step : Str → Span → M (Acc κ × Stream) Unit} {key : Str} {name : Str} {sp : Span} {v vt rest : List Tok}
    {sc : Span} {x : α} (hk : KeyToks [key] sp v vt) (hr : ReadsFully func vt rest sc x) (hb : Boundary rest)
    (hs : step (keyString [key]) sp = slotItem get put func name sp) (k : κ) (errs : Errors) (u : Option Span)
    (hfree : ¬ (get k).isNone = true) :
    (keyStep step (⟨k, errs⟩, ⟨v ++ rest, sc, u⟩)).2.1.errs.toList ≠ [] := by
  rw [keyStep_key _ hk hb, hs, slotItem_run hr]
  exact dupErrs_taken hfree _ _ _

theorem push_ok {κ α : Type} {put : κ → α → κ} {func : M Stream α} {step : Str → Span → M (Acc κ × Stream) Unit}
    {key : Str} {sp : Span} {v vt rest : List Tok} {sc : Span} {x : α} (hk : KeyToks [key] sp v vt)
    (hr : ReadsFully func vt rest sc x) (hb : Boundary rest) (hs : step (keyString [key]) sp = pushItem func put)
    (k : κ) (errs : Errors) (u : Option Span) :
    keyStep step (⟨k, errs⟩, ⟨v ++ rest, sc, u⟩) = (.ok (), (⟨put k x, errs⟩, ⟨rest, sc, u⟩)) := by
  rw [keyStep_key _ hk hb, hs]
  simp only [pushItem, stepPush, hr u]

theorem refuse_bad {κ : Type} {step : Str → Span → M (Acc κ × Stream) Unit} {key : Str} {text : Text} {sp : Span}
    {v vt rest : List Tok} {sc : Span} (hk : KeyToks [key] sp v vt) (hb : Boundary rest)
    (hs : step (keyString [key]) sp = refuse text sp) (k : κ) (errs : Errors) (u : Option Span) :
    (keyStep step (⟨k, errs⟩, ⟨v ++ rest, sc, u⟩)).2.1.errs.toList ≠ [] := by
  rw [keyStep_key _ hk hb, hs]
  simp [refuse]

/-! ## Structures -/

def structApply (k : StructSt) : StructAttr → StructSt
  | .transparent x => { k with transparent := keepFirst k.transparent x }
  | .allowUnknown x => { k with allowUnknown := keepFirst k.allowUnknown x }
  | .default x => { k with default := keepFirst k.default x }
  | .crate x => { k with crate := keepFirst k.crate x }
  | .andThen x => { k with andThens := k.andThens ++ [x] }
  | .attributes x => { k with attributes := k.attributes ++ x }

def structFree (k : StructSt) : StructAttr → Bool
  | .transparent _ => k.transparent.isNone
  | .allowUnknown _ => k.allowUnknown.isNone
  | .default _ => k.default.isNone
  | .crate _ => k.crate.isNone
  | .andThen _ => true
  | .attributes _ => true

/-- The attribute fits the structure. -/
structure StructFine (shape : Shape) (fields : List FieldDecl) (b : StructAttr) : Prop where
  tuple : shape = .unnamed → b.key ≠ "allow_unknown_fields"
  unit : shape = .unit → b.key ≠ "default"
  transparent : b.key = "transparent" → CanBeTransparent fields

def StructValid (shape : Shape) (fields : List FieldDecl) : StructSt → StructAttr → Prop :=
  ValidAt structFree (fun _ => none) (fun _ => []) (StructFine shape fields)

section
variable (lib : SynLib) {shape : Shape} {fields : List FieldDecl} (sp : Span)

theorem structStep_transparent (h : CanBeTransparent fields) :
    structStep lib shape fields (keyString [txt "transparent"]) sp =
      slotItem (·.transparent) (fun st k => { k with transparent := st })
        (transparentDict.named (txt "transparent") sp) (txt "transparent") sp := by
  have : structStep lib shape fields (keyString [txt "transparent"]) sp = slotItem (·.transparent)
    (fun st k => { k with transparent := st }) (transparentItem (txt "struct") fields sp
      (transparentDict.named (txt "transparent") sp)) (txt "transparent") sp := rfl
  rw [this, show transparentItem (txt "struct") fields sp (transparentDict.named (txt "transparent") sp) =
    transparentDict.named (txt "transparent") sp by
      unfold transparentItem
      rw [(transparentRefusal_none _ _).2 h]]

theorem structStep_allowUnknown : structStep lib shape fields (keyString [txt "allow_unknown_fields"]) sp =
    if shape = .unnamed then refuse (notOnTupleText (txt "allow_unknown_fields") (txt "struct")) sp
    else slotItem (·.allowUnknown) (fun st k => { k with allowUnknown := st })
      (boolDict.named (txt "allow_unknown_fields") sp) (txt "allow_unknown_fields") sp := rfl

theorem structStep_default : structStep lib shape fields (keyString [txt "default"]) sp =
    if shape = .unit then refuse (.custom (txt "`default` not allowed on unit struct")) sp
    else slotItem (·.default) (fun st k => { k with default := st }) (defaultDict.named (txt "default") sp)
      (txt "default") sp := rfl

theorem structStep_crate : structStep lib shape fields (keyString [txt "crate"]) sp =
    slotItem (·.crate) (fun st k => { k with crate := st }) ((synDict lib.path).named (txt "crate") sp)
      (txt "crate") sp := rfl

theorem structStep_andThen : structStep lib shape fields (keyString [txt "and_then"]) sp =
    pushItem (tokenStreamDict.named (txt "and_then") sp) fun k e => { k with andThens := k.andThens ++ [e] } := rfl

theorem structStep_attributes : structStep lib shape fields (keyString [txt "attributes"]) sp =
    pushItem ((modPathVec lib).named (txt "attributes") sp)
      fun k e => { k with attributes := k.attributes ++ e } := rfl

end

omit [Env] in
theorem slotItem_fail {κ α : Type} {get : κ → FieldStatus α} {put : FieldStatus α → κ → κ} {e : SynErr} {name : Str}
    {sp : Span} (st : Acc κ × Stream) : (slotItem get put (M.fail e) name sp st).2.1.errs.toList ≠ [] := by
  obtain ⟨⟨k, errs⟩, s⟩ := st
  rw [slotItem_eq]
  simp [M.fail, SynErr.toList]

theorem structStep_valid {lib : SynLib} {shape : Shape} {fields : List FieldDecl} (k : StructSt) (errs : Errors)
    (v rest : List Tok) (sc : Span) (u : Option Span) (b : StructAttr) (hs : StructDefSeg lib v rest sc b)
    (hb : Boundary rest) (hv : StructValid shape fields k b) :
    keyStep (structStep lib shape fields) (⟨k, errs⟩, ⟨v ++ rest, sc, u⟩) =
      (.ok (), (⟨structApply k b, errs⟩, ⟨rest, sc, u⟩)) := by
  obtain ⟨h1, -, h3⟩ := hv
  cases hs with
  | transparent hk hr =>
    have := slot_ok hk hr hb (structStep_transparent lib (shape := shape) _ (h3.transparent rfl)) k errs u h1
    exact this
  | allowUnknown hk hr =>
    have he := structStep_allowUnknown lib (shape := shape) (fields := fields)
    have := slot_ok hk hr hb ((he _).trans (if_neg (fun h => h3.tuple h rfl))) k errs u h1
    exact this
  | default hk hr =>
    have he := structStep_default lib (shape := shape) (fields := fields)
    have := slot_ok hk hr hb ((he _).trans (if_neg (fun h => h3.unit h rfl))) k errs u h1
    exact this
  | crate hk hr =>
    have := slot_ok hk hr hb (structStep_crate lib (shape := shape) (fields := fields) _) k errs u h1
    exact this
  | andThen hk hr =>
    have := push_ok hk hr hb (structStep_andThen lib (shape := shape) (fields := fields) _) k errs u
    exact this
  | attributes hk hr =>
    have := push_ok hk hr hb (structStep_attributes lib (shape := shape) (fields := fields) _) k errs u
    exact this

theorem structStep_bad {lib : SynLib} {shape : Shape} {fields : List FieldDecl} (k : StructSt) (errs : Errors)
    (v rest : List Tok) (sc : Span) (u : Option Span) (b : StructAttr) (hs : StructDefSeg lib v rest sc b)
    (hb : Boundary rest) (hv : ¬ StructValid shape fields k b) :
    (keyStep (structStep lib shape fields) (⟨k, errs⟩, ⟨v ++ rest, sc, u⟩)).2.1.errs.toList ≠ [] := by
  have hv' : structFree k b = true → ¬ StructFine shape fields b := fun h1 h2 => hv ⟨h1, by simp, h2⟩
  cases hs with
  | @transparent sp vt x hk hr =>
    by_cases hc : CanBeTransparent fields
    · have := slot_bad hk hr hb (structStep_transparent lib (shape := shape) _ hc) k errs u fun h =>
        hv' h ⟨by simp [StructAttr.key], by simp [StructAttr.key], fun _ => hc⟩
      exact this
    · rw [keyStep_key _ hk hb]
      have he : structStep lib shape fields (keyString [txt "transparent"]) sp = slotItem (·.transparent)
        (fun st k => { k with transparent := st }) (transparentItem (txt "struct") fields sp
          (transparentDict.named (txt "transparent") sp)) (txt "transparent") sp := rfl
      rw [he]
      unfold transparentItem
      cases hm : transparentRefusal (txt "struct") fields with
      | none => exact absurd ((transparentRefusal_none _ _).1 hm) hc
      | some m => exact slotItem_fail _
  | allowUnknown hk hr =>
    have he := structStep_allowUnknown lib (shape := shape) (fields := fields)
    by_cases hsh : shape = .unnamed
    · exact refuse_bad hk hb ((he _).trans (if_pos hsh)) k errs u
    · have := slot_bad hk hr hb ((he _).trans (if_neg hsh)) k errs u fun h =>
        hv' h ⟨fun h => absurd h hsh, by simp [StructAttr.key], by simp [StructAttr.key]⟩
      exact this
  | default hk hr =>
    have he := structStep_default lib (shape := shape) (fields := fields)
    by_cases hsh : shape = .unit
    · exact refuse_bad hk hb ((he _).trans (if_pos hsh)) k errs u
    · have := slot_bad hk hr hb ((he _).trans (if_neg hsh)) k errs u fun h =>
        hv' h ⟨by simp [StructAttr.key], fun h => absurd h hsh, by simp [StructAttr.key]⟩
      exact this
  | crate hk hr =>
    have := slot_bad hk hr hb (structStep_crate lib (shape := shape) (fields := fields) _) k errs u fun h =>
      hv' h ⟨by simp [StructAttr.key], by simp [StructAttr.key], by simp [StructAttr.key]⟩
    exact this
  | andThen hk hr =>
    exact absurd ⟨by simp [StructAttr.key], by simp [StructAttr.key], by simp [StructAttr.key]⟩ (hv' rfl)
  | attributes hk hr =>
    exact absurd ⟨by simp [StructAttr.key], by simp [StructAttr.key], by simp [StructAttr.key]⟩ (hv' rfl)

omit [Env] in
theorem structValid_iff (shape : Shape) (fields : List FieldDecl) (bs : List StructAttr) :
    AllValid structApply (StructValid shape fields) {} bs ↔ StructListOk shape fields bs := by
  have h := allValid_generic (apply := structApply) (key := StructAttr.key) (rep := ["and_then", "attributes"])
    (free := structFree) (name? := fun _ => none) (idents := fun _ => []) (fine := StructFine shape fields)
    (by intro k a b; cases a <;> cases b <;> simp [structFree, structApply, StructAttr.key, keepFirst_isNone])
    (by intro k a x; simp) {} bs
  refine h.trans ⟨?_, ?_⟩
  · rintro ⟨h1, -, h3, -, -⟩
    refine ⟨h1, fun hs hm => ?_, fun hs hm => ?_, fun hm => ?_⟩
    · obtain ⟨b, hb, he⟩ := List.mem_map.1 hm
      exact (h3 b hb).tuple hs he
    · obtain ⟨b, hb, he⟩ := List.mem_map.1 hm
      exact (h3 b hb).unit hs he
    · obtain ⟨b, hb, he⟩ := List.mem_map.1 hm
      exact (h3 b hb).transparent he
  · rintro ⟨h1, h2, h3, h4⟩
    refine ⟨h1, ?_, fun b hb => ⟨fun hs he => ?_, fun hs he => ?_, fun he => ?_⟩, ?_, by simp⟩
    · rw [List.filterMap_eq_nil_iff.2 (fun _ _ => rfl)]; exact .nil
    · exact h2 hs (List.mem_map.2 ⟨b, hb, he⟩)
    · exact h3 hs (List.mem_map.2 ⟨b, hb, he⟩)
    · exact h4 (List.mem_map.2 ⟨b, hb, he⟩)
    · intro b _; cases b <;> rfl

omit [Env] in
theorem structFold (bs : List StructAttr) :
    let k := bs.foldl structApply {}
    k.transparent.intoOption = bs.findSome? StructAttr.transparent? ∧
    k.allowUnknown.intoOption = bs.findSome? StructAttr.allowUnknown? ∧
    k.default = slotPick .none (bs.findSome? StructAttr.default?) ∧
    k.crate.intoOption = bs.findSome? StructAttr.crate? ∧
    k.andThens = bs.filterMap StructAttr.andThen? ∧ k.attributes = bs.flatMap StructAttr.paths := by
  have h5 : ∀ (bs : List StructAttr) (k : StructSt),
      (bs.foldl structApply k).andThens = k.andThens ++ bs.filterMap StructAttr.andThen? := by
    intro bs
    induction bs with
    | nil => simp
    | cons b bs ih =>
      intro k
      rw [List.foldl_cons, ih, List.filterMap_cons]
      cases b <;> simp [structApply, StructAttr.andThen?]
  have h6 : ∀ (bs : List StructAttr) (k : StructSt),
      (bs.foldl structApply k).attributes = k.attributes ++ bs.flatMap StructAttr.paths := by
    intro bs
    induction bs with
    | nil => simp
    | cons b bs ih =>
      intro k
      rw [List.foldl_cons, ih, List.flatMap_cons]
      cases b <;> simp [structApply, StructAttr.paths]
  refine ⟨?_, ?_, ?_, ?_, h5 bs {}, h6 bs {}⟩
  · rw [fold_slot (slot := StructSt.transparent) (val? := StructAttr.transparent?) (by intro k b; cases b <;> rfl)]
    exact slotPick_none _
  · rw [fold_slot (slot := StructSt.allowUnknown) (val? := StructAttr.allowUnknown?) (by intro k b; cases b <;> rfl)]
    exact slotPick_none _
  · exact fold_slot (slot := StructSt.default) (val? := StructAttr.default?) (by intro k b; cases b <;> rfl) _ _
  · rw [fold_slot (slot := StructSt.crate) (val? := StructAttr.crate?) (by intro k b; cases b <;> rfl)]
    exact slotPick_none _

theorem structDone_declared (shape : Shape) (fields : List FieldDecl) (bs : List StructAttr) (errs : Errors) :
    (structDone shape fields ⟨bs.foldl structApply {}, errs⟩).2 = declaredStruct shape fields bs := by
  obtain ⟨h1, h2, h3, h4, h5, h6⟩ := structFold bs
  unfold structDone declaredStruct
  dsimp only
  rw [h1, h2, h3, h4, h5, h6, slotPick_none]
  have hf : fields.map fillSkipped = fields.map withSkipDefault := List.map_congr_left fun f _ => fillSkipped_eq f
  cases bs.findSome? StructAttr.default? <;> simp [slotPick, FieldStatus.ofOption, FieldStatus.isNone, hf]

/-- What well-formed attributes make of a structure with accepted fields. -/
theorem structBody_items {lib : SynLib} {d : StructIn} {ds : List FieldDecl} {l : List Stream} {bs : List StructAttr}
    (hf : d.fields.map (FieldIn.read lib) = ds.map .ok) (hi : ItemsAll (StructDefSeg lib) l bs) :
    (StructListOk d.shape ds bs → structBody lib d l =
      ((structDone d.shape ds ⟨bs.foldl structApply {}, Errors.new⟩).1.intoResult (declaredStruct d.shape ds bs),
        l.map Stream.clear)) ∧
    (¬ StructListOk d.shape ds bs → ∀ r l', structBody lib d l ≠ (.ok r, l')) := by
  unfold structBody
  rw [readFields_ok_of _ hf]
  dsimp only
  constructor
  · intro hok
    have hp := parseStruct_fold (structStep_valid (lib := lib) (shape := d.shape) (fields := ds)) hi {} Errors.new
      ((structValid_iff ..).2 hok)
    rw [collectStruct, hp]
    dsimp only
    rw [structDone_declared]
  · intro hbad r l' h
    have hb := parseStruct_bad (structStep_valid (lib := lib) (shape := d.shape) (fields := ds)) structStep_bad
      (structStep_mono lib d.shape ds) hi {} Errors.new (fun h => hbad ((structValid_iff ..).1 h))
    obtain ⟨acc, h1, h2, -, -⟩ := collectStruct_ok (fun acc h => ((structDone_nil _ _ _).1 h).1) h
    rw [h1] at hb
    exact hb h2

/-! ## Variants -/

def variantApply (k : VariantSt) : VariantAttr → VariantSt
  | .transparent x => { k with transparent := keepFirst k.transparent x }
  | .allowUnknown x => { k with allowUnknown := keepFirst k.allowUnknown x }
  | .flatten x => { k with flatten := keepFirst k.flatten x }
  | .rename sp n =>
    { k with names := { k.names with idents := n :: k.names.idents, rename := keepFirst k.names.rename sp } }
  | .alias sp n =>
    { k with names := { k.names with idents := k.names.idents ++ [n], aliasSpan := keepFirst k.names.aliasSpan sp } }
  | .skip x => { k with skip := keepFirst k.skip x }

def variantFree (k : VariantSt) : VariantAttr → Bool
  | .transparent _ => k.transparent.isNone
  | .allowUnknown _ => k.allowUnknown.isNone
  | .flatten _ => k.flatten.isNone
  | .rename .. => k.names.rename.isNone
  | .alias .. => true
  | .skip _ => k.skip.isNone

/-- The attribute fits the variant. -/
structure VariantFine (v : VariantIn) (fields : List FieldDecl) (b : VariantAttr) : Prop where
  tuple : v.shape = .unnamed → b.key ≠ "allow_unknown_fields"
  transparent : b.key = "transparent" → CanBeTransparent fields
  own : ∀ n, b.name? = some n → n.1 ≠ v.ident.1

def VariantValid (v : VariantIn) (fields : List FieldDecl) : VariantSt → VariantAttr → Prop :=
  ValidAt variantFree (fun b => b.name?.map (·.1)) (fun k => k.names.idents.map (·.1)) (VariantFine v fields)

section
variable {v : VariantIn} {fields : List FieldDecl} (sp : Span)

theorem variantStep_transparent (h : CanBeTransparent fields) :
    variantStep v fields (keyString [txt "transparent"]) sp =
      slotItem (·.transparent) (fun st k => { k with transparent := st })
        ((optionDict (spannedDict boolDict)).named (txt "transparent") sp) (txt "transparent") sp := by
  have : variantStep v fields (keyString [txt "transparent"]) sp = slotItem (·.transparent)
    (fun st k => { k with transparent := st }) (transparentItem (txt "variant") fields sp
      ((optionDict (spannedDict boolDict)).named (txt "transparent") sp)) (txt "transparent") sp := rfl
  rw [this, show transparentItem (txt "variant") fields sp
      ((optionDict (spannedDict boolDict)).named (txt "transparent") sp) =
      (optionDict (spannedDict boolDict)).named (txt "transparent") sp by
    unfold transparentItem
    rw [(transparentRefusal_none _ _).2 h]]

theorem variantStep_allowUnknown : variantStep v fields (keyString [txt "allow_unknown_fields"]) sp =
    if v.shape = .unnamed then refuse (notOnTupleText (txt "allow_unknown_fields") (txt "variant")) sp
    else slotItem (·.allowUnknown) (fun st k => { k with allowUnknown := st })
      (boolDict.named (txt "allow_unknown_fields") sp) (txt "allow_unknown_fields") sp := rfl

theorem variantStep_flatten : variantStep v fields (keyString [txt "flatten"]) sp =
    slotItem (·.flatten) (fun st k => { k with flatten := st })
      ((optionDict (spannedDict boolDict)).named (txt "flatten") sp) (txt "flatten") sp := rfl

theorem variantStep_skip : variantStep v fields (keyString [txt "skip"]) sp =
    slotItem (·.skip) (fun st k => { k with skip := st }) ((spannedDict boolDict).named (txt "skip") sp)
      (txt "skip") sp := rfl

theorem variantStep_rename : variantStep v fields (keyString [txt "rename"]) sp =
    onNames (·.names) (fun n k => { k with names := n }) (renameItem (txt "variant") (some v.ident.1) sp) := rfl

theorem variantStep_alias : variantStep v fields (keyString [txt "alias"]) sp =
    onNames (·.names) (fun n k => { k with names := n }) (aliasItem (txt "variant") (some v.ident.1) sp) := rfl

end

theorem variantStep_valid {v : VariantIn} {fields : List FieldDecl} (k : VariantSt) (errs : Errors)
    (vt rest : List Tok) (sc : Span) (u : Option Span) (b : VariantAttr) (hs : VariantSeg vt rest sc b)
    (hb : Boundary rest) (hv : VariantValid v fields k b) :
    keyStep (variantStep v fields) (⟨k, errs⟩, ⟨vt ++ rest, sc, u⟩) =
      (.ok (), (⟨variantApply k b, errs⟩, ⟨rest, sc, u⟩)) := by
  obtain ⟨h1, h2, h3⟩ := hv
  cases hs with
  | transparent hk hr =>
    have := slot_ok hk hr hb (variantStep_transparent (v := v) _ (h3.transparent rfl)) k errs u h1
    exact this
  | allowUnknown hk hr =>
    have he := variantStep_allowUnknown (v := v) (fields := fields)
    have := slot_ok hk hr hb ((he _).trans (if_neg (fun h => h3.tuple h rfl))) k errs u h1
    exact this
  | flatten hk hr =>
    have := slot_ok hk hr hb (variantStep_flatten (v := v) (fields := fields) _) k errs u h1
    exact this
  | skip hk hr =>
    have := slot_ok hk hr hb (variantStep_skip (v := v) (fields := fields) _) k errs u h1
    exact this
  | @rename sp vt n hk hr =>
    have hn : ¬ some v.ident.1 = some n.1 := fun h => h3.own n rfl (Option.some.inj h).symm
    have hd := h2 n.1 rfl
    have := renameItem_eq (txt "variant") (some v.ident.1) sp k.names errs ⟨vt ++ rest, sc, u⟩
    rw [hr u] at this
    dsimp only at this
    rw [if_neg hn, if_neg (by simpa using hd), dupErrs_free h1] at this
    rw [keyStep_key _ hk hb, variantStep_rename]
    simp only [onNames]
    rw [this]
    rfl
  | @alias sp vt n hk hr =>
    have hn : ¬ some v.ident.1 = some n.1 := fun h => h3.own n rfl (Option.some.inj h).symm
    have hd := h2 n.1 rfl
    rw [keyStep_key _ hk hb, variantStep_alias]
    simp only [onNames, aliasItem, stepPush, hr u]
    rw [if_neg hn, if_neg (by simpa using hd)]
    rfl

theorem variantStep_bad {v : VariantIn} {fields : List FieldDecl} (k : VariantSt) (errs : Errors)
    (vt rest : List Tok) (sc : Span) (u : Option Span) (b : VariantAttr) (hs : VariantSeg vt rest sc b)
    (hb : Boundary rest) (hv : ¬ VariantValid v fields k b) :
    (keyStep (variantStep v fields) (⟨k, errs⟩, ⟨vt ++ rest, sc, u⟩)).2.1.errs.toList ≠ [] := by
  cases hs with
  | @transparent sp vt x hk hr =>
    by_cases hc : CanBeTransparent fields
    · have := slot_bad hk hr hb (variantStep_transparent (v := v) _ hc) k errs u fun h =>
        hv ⟨h, by simp [VariantAttr.name?], by simp [VariantAttr.key], fun _ => hc, by simp [VariantAttr.name?]⟩
      exact this
    · rw [keyStep_key _ hk hb]
      have he : variantStep v fields (keyString [txt "transparent"]) sp = slotItem (·.transparent)
        (fun st k => { k with transparent := st }) (transparentItem (txt "variant") fields sp
          ((optionDict (spannedDict boolDict)).named (txt "transparent") sp)) (txt "transparent") sp := rfl
      rw [he]
      unfold transparentItem
      cases hm : transparentRefusal (txt "variant") fields with
      | none => exact absurd ((transparentRefusal_none _ _).1 hm) hc
      | some m => exact slotItem_fail _
  | allowUnknown hk hr =>
    have he := variantStep_allowUnknown (v := v) (fields := fields)
    by_cases hsh : v.shape = .unnamed
    · exact refuse_bad hk hb ((he _).trans (if_pos hsh)) k errs u
    · have := slot_bad hk hr hb ((he _).trans (if_neg hsh)) k errs u fun h =>
        hv ⟨h, by simp [VariantAttr.name?], fun h => absurd h hsh, by simp [VariantAttr.key],
          by simp [VariantAttr.name?]⟩
      exact this
  | flatten hk hr =>
    have := slot_bad hk hr hb (variantStep_flatten (v := v) (fields := fields) _) k errs u fun h =>
      hv ⟨h, by simp [VariantAttr.name?], by simp [VariantAttr.key], by simp [VariantAttr.key],
        by simp [VariantAttr.name?]⟩
    exact this
  | skip hk hr =>
    have := slot_bad hk hr hb (variantStep_skip (v := v) (fields := fields) _) k errs u fun h =>
      hv ⟨h, by simp [VariantAttr.name?], by simp [VariantAttr.key], by simp [VariantAttr.key],
        by simp [VariantAttr.name?]⟩
    exact this
  | @rename sp vt n hk hr =>
    rw [keyStep_key _ hk hb, variantStep_rename]
    have := renameItem_eq (txt "variant") (some v.ident.1) sp k.names errs ⟨vt ++ rest, sc, u⟩
    rw [hr u] at this
    dsimp only at this
    simp only [onNames]
    rw [this]
    split
    · simp [renameFailed, SynErr.toList]
    · rename_i h1
      split
      · simp [renameFailed, SynErr.toList]
      · rename_i h2
        refine dupErrs_taken (fun h => hv ⟨h, ?_, by simp [VariantAttr.key], by simp [VariantAttr.key], ?_⟩) _ _ _
        · intro m hm
          simp only [VariantAttr.name?, Option.map_some, Option.some.injEq] at hm
          subst hm; simpa using h2
        · intro m hm he
          simp only [VariantAttr.name?, Option.some.injEq] at hm
          subst hm; exact h1 (by rw [he])
  | @alias sp vt n hk hr =>
    rw [keyStep_key _ hk hb, variantStep_alias]
    simp only [onNames, aliasItem, stepPush, hr u]
    split
    · simp
    · rename_i h1
      split
      · simp
      · rename_i h2
        refine absurd ⟨rfl, ?_, by simp [VariantAttr.key], by simp [VariantAttr.key], ?_⟩ hv
        · intro m hm
          simp only [VariantAttr.name?, Option.map_some, Option.some.injEq] at hm
          subst hm; simpa using h2
        · intro m hm he
          simp only [VariantAttr.name?, Option.some.injEq] at hm
          subst hm; exact h1 (by rw [he])

theorem variantStep_mono (v : VariantIn) (fields : List FieldDecl) (path : Str) (span : Span)
    (st : Acc VariantSt × Stream) :
    st.1.errs.toList <+: (variantStep v fields path span st).2.1.errs.toList := by
  have hr := renameItem_mono (txt "variant") (some v.ident.1) span (⟨st.1.val.names, st.1.errs⟩, st.2)
  have hal := aliasItem_mono (txt "variant") (some v.ident.1) span (⟨st.1.val.names, st.1.errs⟩, st.2)
  cases ha : variantArm path <;> simp only [variantStep, ha]
  · exact slotItem_mono ..
  · split
    · exact (refuse_mono _ _ _).1
    · exact slotItem_mono ..
  · exact slotItem_mono ..
  · exact hr
  · exact hal
  · exact slotItem_mono ..
  · exact (checkUnknownItem_mono ..).1

omit [Env] in
theorem variantValid_iff (v : VariantIn) (fields : List FieldDecl) (bs : List VariantAttr) :
    AllValid variantApply (VariantValid v fields) {} bs ↔ VariantListOk v fields bs := by
  have h := allValid_generic (apply := variantApply) (key := VariantAttr.key) (rep := ["alias"])
    (free := variantFree) (name? := fun b => b.name?.map (·.1)) (idents := fun k => k.names.idents.map (·.1))
    (fine := VariantFine v fields)
    (by intro k a b; cases a <;> cases b <;> simp [variantFree, variantApply, VariantAttr.key, keepFirst_isNone])
    (by intro k a x; cases a <;> simp [variantApply, VariantAttr.name?, or_comm, eq_comm]) {} bs
  have hnames : bs.filterMap (fun b => b.name?.map (·.1)) = (bs.filterMap VariantAttr.name?).map (·.1) := by
    rw [List.map_filterMap]
  have honce : ((bs.map VariantAttr.key).filter (· ∉ ["alias"])) = (bs.map VariantAttr.key).filter (· ≠ "alias") := by
    apply List.filter_congr; intro x _; simp
  rw [hnames, honce] at h
  refine h.trans ⟨?_, ?_⟩
  · rintro ⟨h1, h2, h3, -, -⟩
    refine ⟨h1, fun hs hm => ?_, fun hm => ?_, h2, fun b hb => (h3 b hb).own⟩
    · obtain ⟨b, hb, he⟩ := List.mem_map.1 hm
      exact (h3 b hb).tuple hs he
    · obtain ⟨b, hb, he⟩ := List.mem_map.1 hm
      exact (h3 b hb).transparent he
  · rintro ⟨h1, h2, h3, h4, h5⟩
    refine ⟨h1, h4, fun b hb => ⟨fun hs he => ?_, fun he => ?_, h5 b hb⟩, ?_, by simp⟩
    · exact h2 hs (List.mem_map.2 ⟨b, hb, he⟩)
    · exact h3 (List.mem_map.2 ⟨b, hb, he⟩)
    · intro b _; cases b <;> rfl

omit [Env] in
/-- An attribute that cannot be repeated is found at most once. -/
theorem once_of_nodup {β α : Type} {key : β → String} {p : String → Bool} {K : String} {g : β → Option α}
    (hg : ∀ b, (g b).isSome = true → key b = K) (hK : p K = true) {bs : List β}
    (h : ((bs.map key).filter p).Nodup) : bs.filterMap g = (bs.findSome? g).toList := by
  induction bs with
  | nil => rfl
  | cons b bs ih =>
    rw [List.map_cons, List.filter_cons] at h
    rw [List.filterMap_cons, List.findSome?_cons]
    cases hb : g b with
    | none =>
      refine ih ?_
      split at h
      · exact (List.nodup_cons.1 h).2
      · exact h
    | some n =>
      have hk : key b = K := hg b (by rw [hb]; rfl)
      rw [hk, if_pos hK] at h
      have hno : bs.filterMap g = [] := by
        rw [List.filterMap_eq_nil_iff]
        intro c hc
        cases hcn : g c with
        | none => rfl
        | some m =>
          have hck : key c = K := hg c (by rw [hcn]; rfl)
          exact absurd (List.mem_filter.2 ⟨List.mem_map.2 ⟨c, hc, hck⟩, hK⟩) (List.nodup_cons.1 h).1
      simp [hno]

omit [Env] in
theorem join_of_nodup {β α : Type} {key : β → String} {p : String → Bool} {K : String} {g : β → Option (Option α)}
    (hg : ∀ b, (g b).isSome = true → key b = K) (hK : p K = true) {bs : List β}
    (h : ((bs.map key).filter p).Nodup) : (bs.findSome? g).join = bs.findSome? fun b => (g b).join := by
  have h1 := once_of_nodup hg hK h
  have h2 : bs.filterMap (fun b => (g b).join) = (bs.filterMap g).filterMap id := by
    rw [List.filterMap_filterMap]
    apply filterMap_congr'
    intro b _; cases g b <;> rfl
  have h3 := once_of_nodup (g := fun b => (g b).join) (K := K) (fun b hb => hg b (by
    cases hgb : g b with
    | none => rw [hgb] at hb; simp at hb
    | some x => rfl)) hK h
  rw [h2, h1] at h3
  cases hf : bs.findSome? g with
  | none => rw [hf] at h3; cases hs : bs.findSome? fun b => (g b).join with
    | none => rfl
    | some x => rw [hs] at h3; simp at h3
  | some x =>
    rw [hf] at h3
    cases x with
    | none => cases hs : bs.findSome? fun b => (g b).join with
      | none => rfl
      | some x => rw [hs] at h3; simp at h3
    | some x => cases hs : bs.findSome? fun b => (g b).join with
      | none => rw [hs] at h3; simp at h3
      | some y => rw [hs] at h3; simpa using h3

/-- `flatten` with the value as it was read. -/
def VariantAttr.rawFlatten? : VariantAttr → Option (Option (Spanned Bool))
  | .flatten x => some x
  | _ => none
def VariantAttr.rawTransparent? : VariantAttr → Option (Option (Spanned Bool))
  | .transparent x => some x
  | _ => none

omit [Env] in
theorem variantFold (bs : List VariantAttr) :
    let k := bs.foldl variantApply {}
    k.transparent = slotPick .none (bs.findSome? VariantAttr.rawTransparent?) ∧
    k.flatten = slotPick .none (bs.findSome? VariantAttr.rawFlatten?) ∧
    k.allowUnknown.intoOption = bs.findSome? VariantAttr.allowUnknown? ∧
    k.skip.intoOption = bs.findSome? VariantAttr.skip? ∧
    k.names.idents = (bs.filterMap VariantAttr.rename?).reverse ++ bs.filterMap VariantAttr.alias? ∧
    (k.names.rename.isNone = true ↔ bs.findSome? VariantAttr.rename? = none) ∧
    (k.names.rename.intoOption.isSome = true ↔ bs.findSome? VariantAttr.rename? ≠ none) ∧
    (k.names.aliasSpan.intoOption.isSome = true ↔ bs.filterMap VariantAttr.alias? ≠ []) := by
  have h5 : ∀ (bs : List VariantAttr) (k : VariantSt), (bs.foldl variantApply k).names.idents =
      (bs.filterMap VariantAttr.rename?).reverse ++ k.names.idents ++ bs.filterMap VariantAttr.alias? := by
    intro bs
    induction bs with
    | nil => simp
    | cons b bs ih =>
      intro k
      rw [List.foldl_cons, ih, List.filterMap_cons, List.filterMap_cons]
      cases b <;> simp [variantApply, VariantAttr.rename?, VariantAttr.alias?]
  have h6 := fold_slot (apply := variantApply) (slot := fun k => k.names.rename) (val? := fun b => match b with
    | .rename sp _ => some sp
    | _ => none) (by intro k b; cases b <;> rfl) bs {}
  have h7 := fold_slot (apply := variantApply) (slot := fun k => k.names.aliasSpan) (val? := fun b => match b with
    | .alias sp _ => some sp
    | _ => none) (by intro k b; cases b <;> rfl) bs {}
  dsimp only at h6 h7
  have hr : ∀ bs : List VariantAttr, (bs.findSome? fun b => match b with
      | .rename sp _ => some sp
      | _ => none).isSome = (bs.findSome? VariantAttr.rename?).isSome := by
    intro bs
    induction bs with
    | nil => rfl
    | cons b bs ih =>
      rw [List.findSome?_cons, List.findSome?_cons]
      cases b <;> simp [VariantAttr.rename?, ih]
  have hal : ∀ bs : List VariantAttr, (bs.findSome? fun b => match b with
      | .alias sp _ => some sp
      | _ => none).isSome = true ↔ bs.filterMap VariantAttr.alias? ≠ [] := by
    intro bs
    induction bs with
    | nil => simp
    | cons b bs ih =>
      rw [List.findSome?_cons, List.filterMap_cons]
      cases b <;> simp only [VariantAttr.alias?, ih]
      simp
  have hr' := hr bs
  have hal' := hal bs
  refine ⟨?_, ?_, ?_, ?_, by simpa using h5 bs {}, ?_, ?_, ?_⟩
  · exact fold_slot (slot := VariantSt.transparent) (val? := VariantAttr.rawTransparent?)
      (by intro k b; cases b <;> rfl) _ _
  · exact fold_slot (slot := VariantSt.flatten) (val? := VariantAttr.rawFlatten?) (by intro k b; cases b <;> rfl) _ _
  · rw [fold_slot (slot := VariantSt.allowUnknown) (val? := VariantAttr.allowUnknown?)
      (by intro k b; cases b <;> rfl)]
    exact slotPick_none _
  · rw [fold_slot (slot := VariantSt.skip) (val? := VariantAttr.skip?) (by intro k b; cases b <;> rfl)]
    exact slotPick_none _
  · rw [h6]
    revert hr'
    generalize (bs.findSome? _ : Option Span) = o
    cases o <;> cases bs.findSome? VariantAttr.rename? <;> simp [slotPick, FieldStatus.ofOption, FieldStatus.isNone]
  · rw [h6, slotPick_none, hr']
    cases bs.findSome? VariantAttr.rename? <;> simp
  · rw [h7, slotPick_none, hal']

omit [Env] in
theorem flattenStatus {α : Type} (o : Option (Option α)) :
    (slotPick .none o).flatten FieldStatus.ofOption = .ofOption o.join := by
  rcases o with _ | _ | x <;> rfl

theorem variantDone_declared {lib : SynLib} {v : VariantIn} {fields : List FieldDecl} {bs : List VariantAttr}
    (hok : VariantListOk v fields bs) (errs : Errors) :
    (variantDone lib v fields ⟨bs.foldl variantApply {}, errs⟩).2 = declaredVariant lib v fields bs := by
  obtain ⟨h1, h2, h3, h4, h5, h6, -, -⟩ := variantFold bs
  have hfl : (bs.findSome? VariantAttr.rawFlatten?).join = bs.findSome? VariantAttr.flatten? := by
    rw [join_of_nodup (K := "flatten") (by intro b; cases b <;> simp [VariantAttr.rawFlatten?, VariantAttr.key])
      (by decide) hok.once]
    congr 1; funext b; cases b <;> rfl
  have htr : (bs.findSome? VariantAttr.rawTransparent?).join = bs.findSome? VariantAttr.transparent? := by
    rw [join_of_nodup (K := "transparent")
      (by intro b; cases b <;> simp [VariantAttr.rawTransparent?, VariantAttr.key]) (by decide) hok.once]
    congr 1; funext b; cases b <;> rfl
  have hre := once_of_nodup (g := VariantAttr.rename?) (K := "rename")
    (by intro b; cases b <;> simp [VariantAttr.rename?, VariantAttr.key]) (by decide) hok.once
  have hf : fields.map fillSkipped = fields.map withSkipDefault := List.map_congr_left fun f _ => fillSkipped_eq f
  have hi : ∀ {α : Type} (o : Option α), (FieldStatus.ofOption o).intoOption = o := by
    intro α o; cases o <;> rfl
  have hval : ∀ o : Option (Spanned Bool), ((FieldStatus.ofOption o).map (·.value)).unwrapOr false =
      (o.map (·.value)).getD false := by
    intro o; cases o <;> rfl
  have hn : (bs.foldl variantApply {}).names.rename.isNone = (bs.findSome? VariantAttr.rename?).isNone := by
    rw [Bool.eq_iff_iff, h6]; simp
  unfold variantDone declaredVariant
  dsimp only
  rw [h1, h2, h3, h4, h5, hn, flattenStatus, flattenStatus, hfl, htr, hf, hre, hi, hi, hval]
  congr 1
  cases bs.findSome? VariantAttr.rename? with
  | some n => simp
  | none => cases ((bs.findSome? VariantAttr.flatten?).map (·.value)).getD false <;> simp [unraw_eq]

omit [Env] in
/-- When the own name of a variant is made and is no identifier. -/
theorem ownNamePanics_iff {lib : SynLib} {v : VariantIn} {fields : List FieldDecl} {bs : List VariantAttr}
    (hok : VariantListOk v fields bs) : ownNamePanics lib v (bs.foldl variantApply {}) = true ↔ ¬ OwnNameOk lib v bs := by
  obtain ⟨-, h2, -, -, -, h6, -, -⟩ := variantFold bs
  have hfl : (bs.findSome? VariantAttr.rawFlatten?).join = bs.findSome? VariantAttr.flatten? := by
    rw [join_of_nodup (K := "flatten") (by intro b; cases b <;> simp [VariantAttr.rawFlatten?, VariantAttr.key])
      (by decide) hok.once]
    congr 1; funext b; cases b <;> rfl
  have hval : ∀ o : Option (Spanned Bool), ((FieldStatus.ofOption o).map (·.value)).unwrapOr false = true ↔
      o.map (·.value) = some true := by
    intro o
    cases o with
    | none => simp [FieldStatus.ofOption, FieldStatus.map, FieldStatus.unwrapOr]
    | some x => simp [FieldStatus.ofOption, FieldStatus.map, FieldStatus.unwrapOr]
  unfold ownNamePanics OwnNameOk
  rw [h2, flattenStatus, hfl, unraw_eq]
  simp only [Bool.and_eq_true, Bool.not_eq_true', ← Bool.not_eq_true, hval, h6]
  constructor
  · rintro ⟨⟨a, b⟩, c⟩ h
    exact c (h a b)
  · intro h
    refine ⟨⟨Classical.byContradiction fun a => h fun a' => absurd a' a,
      fun b => h fun _ b' => absurd b b'⟩, fun c => h fun _ _ => c⟩

/-- What well-formed attributes make of a variant with accepted fields. -/
theorem variantBody_items {lib : SynLib} {v : VariantIn} {ds : List FieldDecl} {l : List Stream}
    {bs : List VariantAttr} (hf : v.fields.map (FieldIn.read lib) = ds.map .ok) (hi : ItemsAll VariantSeg l bs) :
    (VariantListOk v ds bs → OwnNameOk lib v bs → variantBody lib v l =
      ((variantDone lib v ds ⟨bs.foldl variantApply {}, Errors.new⟩).1.intoResult (declaredVariant lib v ds bs),
        l.map Stream.clear)) ∧
    (VariantListOk v ds bs → ¬ OwnNameOk lib v bs → variantBody lib v l = (.panic, l.map Stream.clear)) ∧
    (¬ VariantListOk v ds bs → ∀ r l', variantBody lib v l ≠ (.ok r, l')) := by
  unfold variantBody
  rw [readFields_ok_of _ hf]
  dsimp only
  refine ⟨fun hok hown => ?_, fun hok hown => ?_, ?_⟩
  · have hp := parseStruct_fold (variantStep_valid (v := v) (fields := ds)) hi {} Errors.new
      ((variantValid_iff ..).2 hok)
    have hn := ownNamePanics_iff (lib := lib) hok
    rw [collectStruct, hp]
    dsimp only
    rw [if_neg (fun h => hn.1 h hown), variantDone_declared hok]
  · have hp := parseStruct_fold (variantStep_valid (v := v) (fields := ds)) hi {} Errors.new
      ((variantValid_iff ..).2 hok)
    rw [hp]
    dsimp only
    rw [if_pos ((ownNamePanics_iff (lib := lib) hok).2 hown)]
  · intro hbad r l' h
    split at h
    · simp at h
    have hb := parseStruct_bad (variantStep_valid (v := v) (fields := ds)) variantStep_bad
      (variantStep_mono v ds) hi {} Errors.new (fun h => hbad ((variantValid_iff ..).1 h))
    obtain ⟨acc, h1, h2, -, -⟩ := collectStruct_ok (fun acc h => ((variantDone_nil _ _ _ _).1 h).1) h
    rw [h1] at hb
    exact hb h2

/-- When the checks after the attributes find nothing. -/
theorem variantDone_fold {lib : SynLib} {v : VariantIn} {ds : List FieldDecl} {bs : List VariantAttr}
    (hok : VariantListOk v ds bs) :
    (variantDone lib v ds ⟨bs.foldl variantApply {}, Errors.new⟩).1.toList = [] ↔
      VariantCompatible bs ∧ (declaredVariant lib v ds bs).fields.countP (·.container.isSome) ≤ 1 ∧
      (v.shape = .unnamed → (declaredVariant lib v ds bs).fields.Pairwise fun f g =>
        f.positional = true → g.positional = true → g.default = none → f.default = none) := by
  have hs : ∀ {α : Type} (x : FieldStatus α), x.isSome = x.intoOption.isSome := by
    intro α x; cases x <;> rfl
  obtain ⟨-, -, -, -, -, -, h7, h8⟩ := variantFold bs
  rw [variantDone_nil, variantDone_declared hok, hs, hs, h7, h8]
  have h0 : Errors.new.toList = [] := rfl
  have hfl : (declaredVariant lib v ds bs).flatten.isSome = (bs.findSome? VariantAttr.flatten?).isSome := by
    have hm : ∀ bs : List VariantAttr, (bs.findSome? ((Option.map fun x => x.value) ∘ VariantAttr.flatten?)).isSome =
        (bs.findSome? VariantAttr.flatten?).isSome := by
      intro bs
      induction bs with
      | nil => rfl
      | cons b bs ih =>
        rw [List.findSome?_cons, List.findSome?_cons, Function.comp]
        cases b.flatten? <;> simp [ih]
    simpa [declaredVariant] using hm bs
  have hn : bs.filterMap VariantAttr.name? = [] ↔ bs.findSome? VariantAttr.rename? = none ∧
      bs.filterMap VariantAttr.alias? = [] := by
    rw [List.filterMap_eq_nil_iff, List.filterMap_eq_nil_iff, List.findSome?_eq_none_iff]
    constructor
    · intro h
      exact ⟨fun b hb => by have := h b hb; cases b <;> simp_all [VariantAttr.name?, VariantAttr.rename?],
        fun b hb => by have := h b hb; cases b <;> simp_all [VariantAttr.name?, VariantAttr.alias?]⟩
    · rintro ⟨h1, h2⟩ b hb
      have := h1 b hb
      have := h2 b hb
      cases b <;> simp_all [VariantAttr.name?, VariantAttr.rename?, VariantAttr.alias?]
  simp only [h0, true_and, hfl, VariantCompatible, hn]
  by_cases h : (bs.findSome? VariantAttr.flatten?).isSome = true
  · simp only [h, true_and, forall_const, ne_eq, Decidable.not_not, and_assoc]
  · simp only [h, Bool.false_eq_true, false_and, not_false_eq_true, true_and, false_implies]

/-! ## Enums -/

def enumApply (k : EnumDefSt) : EnumAttr → EnumDefSt
  | .default x => { k with default := keepFirst k.default x }
  | .crate x => { k with crate := keepFirst k.crate x }
  | .andThen x => { k with andThens := k.andThens ++ [x] }
  | .attributes x => { k with attributes := k.attributes ++ x }
  | .allowUnknown x => { k with allowUnknown := keepFirst k.allowUnknown x }

def enumFree (k : EnumDefSt) : EnumAttr → Bool
  | .default _ => k.default.isNone
  | .crate _ => k.crate.isNone
  | .andThen _ => true
  | .attributes _ => true
  | .allowUnknown _ => k.allowUnknown.isNone

def EnumValid : EnumDefSt → EnumAttr → Prop := ValidAt enumFree (fun _ => none) (fun _ => []) fun _ => True

section
variable (lib : SynLib) (sp : Span)

theorem enumStep_allowUnknown : enumDefStep lib (keyString [txt "allow_unknown_fields"]) sp =
    slotItem (·.allowUnknown) (fun st k => { k with allowUnknown := st })
      (boolDict.named (txt "allow_unknown_fields") sp) (txt "allow_unknown_fields") sp := rfl

theorem enumStep_default : enumDefStep lib (keyString [txt "default"]) sp =
    slotItem (·.default) (fun st k => { k with default := st }) (defaultDict.named (txt "default") sp)
      (txt "default") sp := rfl

theorem enumStep_crate : enumDefStep lib (keyString [txt "crate"]) sp =
    slotItem (·.crate) (fun st k => { k with crate := st }) ((synDict lib.path).named (txt "crate") sp)
      (txt "crate") sp := rfl

theorem enumStep_andThen : enumDefStep lib (keyString [txt "and_then"]) sp =
    pushItem (tokenStreamDict.named (txt "and_then") sp) fun k e => { k with andThens := k.andThens ++ [e] } := rfl

theorem enumStep_attributes : enumDefStep lib (keyString [txt "attributes"]) sp =
    pushItem ((modPathVec lib).named (txt "attributes") sp)
      fun k e => { k with attributes := k.attributes ++ e } := rfl

end

theorem enumDefStep_valid {lib : SynLib} (k : EnumDefSt) (errs : Errors) (v rest : List Tok) (sc : Span)
    (u : Option Span) (b : EnumAttr) (hs : EnumDefSeg lib v rest sc b) (hb : Boundary rest) (hv : EnumValid k b) :
    keyStep (enumDefStep lib) (⟨k, errs⟩, ⟨v ++ rest, sc, u⟩) =
      (.ok (), (⟨enumApply k b, errs⟩, ⟨rest, sc, u⟩)) := by
  obtain ⟨h1, -, -⟩ := hv
  cases hs with
  | allowUnknown hk hr => have := slot_ok hk hr hb (enumStep_allowUnknown lib _) k errs u h1; exact this
  | default hk hr => have := slot_ok hk hr hb (enumStep_default lib _) k errs u h1; exact this
  | crate hk hr => have := slot_ok hk hr hb (enumStep_crate lib _) k errs u h1; exact this
  | andThen hk hr => have := push_ok hk hr hb (enumStep_andThen lib _) k errs u; exact this
  | attributes hk hr => have := push_ok hk hr hb (enumStep_attributes lib _) k errs u; exact this

theorem enumDefStep_bad {lib : SynLib} (k : EnumDefSt) (errs : Errors) (v rest : List Tok) (sc : Span)
    (u : Option Span) (b : EnumAttr) (hs : EnumDefSeg lib v rest sc b) (hb : Boundary rest) (hv : ¬ EnumValid k b) :
    (keyStep (enumDefStep lib) (⟨k, errs⟩, ⟨v ++ rest, sc, u⟩)).2.1.errs.toList ≠ [] := by
  have hv' : ¬ enumFree k b = true := fun h1 => hv ⟨h1, by simp, trivial⟩
  cases hs with
  | allowUnknown hk hr => have := slot_bad hk hr hb (enumStep_allowUnknown lib _) k errs u hv'; exact this
  | default hk hr => have := slot_bad hk hr hb (enumStep_default lib _) k errs u hv'; exact this
  | crate hk hr => have := slot_bad hk hr hb (enumStep_crate lib _) k errs u hv'; exact this
  | andThen hk hr => exact absurd rfl hv'
  | attributes hk hr => exact absurd rfl hv'

theorem enumDefStep_mono (lib : SynLib) (path : Str) (span : Span) (st : Acc EnumDefSt × Stream) :
    st.1.errs.toList <+: (enumDefStep lib path span st).2.1.errs.toList := by
  cases ha : enumArm path <;> simp only [enumDefStep, ha]
  · exact slotItem_mono ..
  · exact slotItem_mono ..
  · exact (pushItem_mono ..).1
  · exact (pushItem_mono ..).1
  · exact slotItem_mono ..
  · exact (checkUnknownItem_mono ..).1

omit [Env] in
theorem enumValid_iff (bs : List EnumAttr) : AllValid enumApply EnumValid {} bs ↔ EnumListOk bs := by
  have h := allValid_generic (apply := enumApply) (key := EnumAttr.key) (rep := ["and_then", "attributes"])
    (free := enumFree) (name? := fun _ => none) (idents := fun _ => []) (fine := fun _ => True)
    (by intro k a b; cases a <;> cases b <;> simp [enumFree, enumApply, EnumAttr.key, keepFirst_isNone])
    (by intro k a x; simp) {} bs
  refine h.trans ⟨fun h => h.1, fun h => ⟨h, ?_, fun _ _ => trivial, ?_, by simp⟩⟩
  · rw [List.filterMap_eq_nil_iff.2 (fun _ _ => rfl)]; exact .nil
  · intro b _; cases b <;> rfl

omit [Env] in
theorem enumFold (bs : List EnumAttr) :
    let k := bs.foldl enumApply {}
    k.allowUnknown.intoOption = bs.findSome? EnumAttr.allowUnknown? ∧
    k.default = slotPick .none (bs.findSome? EnumAttr.default?) ∧
    k.crate.intoOption = bs.findSome? EnumAttr.crate? ∧
    k.andThens = bs.filterMap EnumAttr.andThen? ∧ k.attributes = bs.flatMap EnumAttr.paths := by
  have h5 : ∀ (bs : List EnumAttr) (k : EnumDefSt),
      (bs.foldl enumApply k).andThens = k.andThens ++ bs.filterMap EnumAttr.andThen? := by
    intro bs
    induction bs with
    | nil => simp
    | cons b bs ih =>
      intro k
      rw [List.foldl_cons, ih, List.filterMap_cons]
      cases b <;> simp [enumApply, EnumAttr.andThen?]
  have h6 : ∀ (bs : List EnumAttr) (k : EnumDefSt),
      (bs.foldl enumApply k).attributes = k.attributes ++ bs.flatMap EnumAttr.paths := by
    intro bs
    induction bs with
    | nil => simp
    | cons b bs ih =>
      intro k
      rw [List.foldl_cons, ih, List.flatMap_cons]
      cases b <;> simp [enumApply, EnumAttr.paths]
  refine ⟨?_, ?_, ?_, h5 bs {}, h6 bs {}⟩
  · rw [fold_slot (slot := EnumDefSt.allowUnknown) (val? := EnumAttr.allowUnknown?) (by intro k b; cases b <;> rfl)]
    exact slotPick_none _
  · exact fold_slot (slot := EnumDefSt.default) (val? := EnumAttr.default?) (by intro k b; cases b <;> rfl) _ _
  · rw [fold_slot (slot := EnumDefSt.crate) (val? := EnumAttr.crate?) (by intro k b; cases b <;> rfl)]
    exact slotPick_none _

theorem enumDone_declared (vs : List VariantDecl) (bs : List EnumAttr) (errs : Errors) :
    (enumDone vs (bs.foldl enumApply {}) errs).2 = declaredEnum vs bs := by
  obtain ⟨h1, h2, h3, h4, h5⟩ := enumFold bs
  show (⟨_, _, _, _, _, _⟩ : EnumDecl) = _
  rw [h1, h2, h3, h4, h5, slotPick_none]
  rfl

theorem readVariants_ok_of {lib : SynLib} {vs : List VariantIn} {ds : List VariantDecl} (errs : Errors)
    (h : vs.map (VariantIn.read lib) = ds.map .ok) : readVariants lib vs errs = .ok (errs, ds) := by
  induction vs generalizing ds with
  | nil => cases ds with
    | nil => rfl
    | cons d ds => simp at h
  | cons f fs ih => cases ds with
    | nil => simp at h
    | cons d ds =>
      simp only [List.map_cons, List.cons.injEq] at h
      rw [readVariants, h.1]
      dsimp only
      rw [ih h.2]
      rfl

theorem readVariants_mono {lib : SynLib} {vs : List VariantIn} {ds : List VariantDecl} {errs errs' : Errors}
    (h : readVariants lib vs errs = .ok (errs', ds)) : errs.toList <+: errs'.toList := by
  induction vs generalizing errs errs' ds with
  | nil =>
    simp only [readVariants, Res.ok.injEq, Prod.mk.injEq] at h
    rw [h.1]; exact List.prefix_refl _
  | cons v vs ih =>
    rw [readVariants] at h
    cases hv : v.read lib with
    | ok d =>
      rw [hv] at h
      dsimp only at h
      cases hr : readVariants lib vs errs with
      | ok x =>
        rw [hr] at h
        simp only [Res.map, Res.ok.injEq, Prod.mk.injEq] at h
        rw [← h.1]
        exact ih (ds := x.2) (errs' := x.1) hr
      | err e => rw [hr] at h; simp [Res.map] at h
      | panic => rw [hr] at h; simp [Res.map] at h
    | err e => rw [hv] at h; exact List.IsPrefix.trans (by simp) (ih h)
    | panic => rw [hv] at h; simp at h

/-- What well-formed attributes make of an enum with accepted variants. -/
theorem enumBody_items {lib : SynLib} {d : EnumIn} {vs : List VariantDecl} {l : List Stream} {bs : List EnumAttr}
    (hf : d.variants.map (VariantIn.read lib) = vs.map .ok) (hi : ItemsAll (EnumDefSeg lib) l bs) :
    (EnumListOk bs → enumBody lib d l =
      ((enumDone vs (bs.foldl enumApply {}) Errors.new).1.intoResult (declaredEnum vs bs), l.map Stream.clear)) ∧
    (¬ EnumListOk bs → ∀ r l', enumBody lib d l ≠ (.ok r, l')) := by
  constructor
  · intro hok
    have hp := parseStruct_fold (enumDefStep_valid (lib := lib)) hi {} Errors.new ((enumValid_iff _).2 hok)
    unfold enumBody
    rw [hp]
    dsimp only
    rw [readVariants_ok_of _ hf]
    dsimp only
    rw [enumDone_declared]
  · intro hbad r l' h
    have hb := parseStruct_bad (enumDefStep_valid (lib := lib)) enumDefStep_bad (enumDefStep_mono lib) hi {} Errors.new
      (fun h => hbad ((enumValid_iff _).1 h))
    unfold enumBody at h
    dsimp only at h
    have hrun : ∀ (acc : Acc EnumDefSt) (l : List Stream), acc.errs.toList ≠ [] →
        (match readVariants lib d.variants acc.errs with
        | .ok (errs, vs) => ((enumDone vs acc.val errs).1.intoResult (enumDone vs acc.val errs).2, l)
        | .err e => (.err e, l)
        | .panic => (.panic, l) : Res EnumDecl × List Stream) ≠ (.ok r, l') := by
      intro acc l ha h
      split at h
      · rename_i errs vs' hr
        rw [Prod.mk.injEq, Errors.intoResult_ok_iff, enumDone_nil] at h
        exact ne_nil_of_prefix (readVariants_mono hr) ha h.1.1.1
      · simp at h
      · simp at h
    split at h
    · simp at h
    · rename_i acc l1 hp
      rw [hp] at hb
      exact hrun acc l1 hb h
    · rename_i e acc l1 hp
      exact hrun ⟨acc.val, acc.errs.pushSyn e⟩ l1 (by simp [SynErr.toList]) h

end Deluxe
