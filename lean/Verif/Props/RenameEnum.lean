import Verif.Props.Rename
/-!
# C123, continued: renaming variants changes their keys and nothing else

For enums without flattened variants.
-/
namespace Deluxe

variable {V : Type}

/-! ## Specification -/

/-- The enums differ in the names of their variants at most. -/
structure EnumDef.Renamed (e e' : EnumDef V) : Prop where
  length : e'.variants.length = e.variants.length
  variant : ∀ (i : Nat) (v v' : Variant V), e.variants[i]? = some v → e'.variants[i]? = some v' →
    v' = { v with idents := v'.idents }
  default : e'.default = e.default
  unknown : e'.allowUnknown = e.allowUnknown
  andThens : e'.andThens = e.andThens

/-- The keys are names of variants at the same position, or both are of no variant; if keys are checked, both are known or
both are not. -/
structure VariantKeysAgree (e e' : EnumDef V) (pre : Str) (validate : Bool) (R : Str → Str → Prop) : Prop where
  own : ∀ k k', R k k' → ∀ i, (∃ n v, Selects e.variants pre k n v i) ↔ ∃ n v, Selects e'.variants pre k' n v i
  known : ∀ k k', R k k' → e.unknownOk = false → validate = true → (k ∈ e.fieldNames ↔ k' ∈ e'.fieldNames)

section
variable [Env]

/-! ## Items -/

omit [Env] in
theorem EnumDef.Renamed.at {e e' : EnumDef V} (h : e.Renamed e') {i : Nat} {v : Variant V} (hv : e.variants[i]? = some v) :
    ∃ v', e'.variants[i]? = some v' ∧ v' = { v with idents := v'.idents } := by
  cases hv' : e'.variants[i]? with
  | none =>
    rw [List.getElem?_eq_none_iff, h.length] at hv'
    rw [List.getElem?_eq_none hv'] at hv
    cases hv
  | some v' => exact ⟨v', rfl, h.variant i v v' hv hv'⟩

omit [Env] in
theorem EnumDef.Renamed.symm {e e' : EnumDef V} (h : e.Renamed e') : e'.Renamed e where
  length := h.length.symm
  variant i v v' h1 h2 := by
    have := h.variant i v' v h2 h1
    rw [this]
  default := h.default.symm
  unknown := h.unknown.symm
  andThens := h.andThens.symm

omit [Env] in
/-- What is asked of each variant, apart from its names, is met by the renamed ones. -/
theorem EnumDef.Renamed.all {e e' : EnumDef V} (h : e.Renamed e') {P : Variant V → Prop} (hP : ∀ v ∈ e.variants, P v)
    (hn : ∀ v ns, P v → P { v with idents := ns }) : ∀ v ∈ e'.variants, P v := by
  intro v' hv'
  obtain ⟨i, hi⟩ := List.getElem?_of_mem hv'
  obtain ⟨v, h1, h2⟩ := h.symm.at hi
  have := h.variant i v v' h1 hi
  rw [this]
  exact hn v _ (hP v (List.mem_of_getElem? h1))

theorem enumValue_good {e : EnumDef V} {site : Site V} (hb : ByNameGood e site) (pre k : Str) (sp : Span) :
    Good (enumValue e site pre k sp) := by
  unfold enumValue
  split
  · rename_i k' v i heq
    have ho := ((selected_some _ _ _ _ _ _).1 heq).mem
    exact Good.map _ (recover_good (hb v ho.1 ho.2.1 _ _ _))
  · exact fun s => ⟨by simp, skipMetaItem_adv s⟩

theorem enumValue_local {e : EnumDef V} {site : Site V}
    (hl : ∀ v ∈ e.variants, v.isTransparent = true → ∀ f ∈ v.fields, f.item.Local) (pre k : Str) (sp : Span) :
    Local (enumValue e site pre k sp) := by
  unfold enumValue
  split
  · rename_i k' v i heq
    have ho := ((selected_some _ _ _ _ _ _).1 heq).mem
    exact (recover_local (variantItem_local (hl v ho.1) _ _ _ _)).map _
  · exact skip_local _

theorem enumItem_renames {e e' : EnumDef V} {site : Site V} (he : e.Renamed e') (hb : ByNameGood e site)
    (hb' : ByNameGood e' site) (hl : ∀ v ∈ e.variants, v.isTransparent = true → ∀ f ∈ v.fields, f.item.Local)
    (hl' : ∀ v ∈ e'.variants, v.isTransparent = true → ∀ f ∈ v.fields, f.item.Local)
    (hn : ∀ v ∈ e.variants, v.NameBlind) {pre : Str} {validate : Bool} {R : Str → Str → Prop}
    (h : VariantKeysAgree e e' pre validate R) :
    Renames R EItem.view EItem.view (enumItem e site pre) (enumItem e' site pre) := by
  refine keyed_renames (enumValue_good hb pre) (enumValue_local hl pre) (enumValue_good hb' pre) (enumValue_local hl' pre)
    fun k k' sp hR s => ?_
  unfold enumValue
  cases hk : selected e.variants pre k with
  | some x =>
    obtain ⟨n, v, i⟩ := x
    have ho := (selected_some _ _ _ _ _ _).1 hk
    obtain ⟨n', v', ho'⟩ := (h.own k k' hR i).1 ⟨n, v, ho⟩
    rw [(selected_some _ _ _ _ _ _).2 ho']
    have hv : v'.item site pre k' sp = v.item site pre k sp := by
      rw [he.variant i v v' ho.2.1 ho'.2.1]
      exact variantItem_blind (hn v ho.mem.1) site pre k' k sp
    simp only [hv, M.map]
    generalize recover (v.item site pre k sp) s = x
    obtain ⟨r, s'⟩ := x
    cases r <;> exact ⟨trivial, rfl⟩
  | none =>
    have hno := (selected_none _ _ _).1 hk
    rw [(selected_none _ _ _).2 fun n' v' i ho => by
      obtain ⟨n, v, hv⟩ := (h.own k k' hR i).2 ⟨n', v', ho⟩
      exact hno n v i hv]
    exact ⟨rfl, rfl⟩

/-! ## The state after the items -/

omit [Env] in
theorem view_values (e e' : EnumDef V) (pre : Str) (he : ∀ v i x, nextValue e v i x = nextValue e' v i x)
    {bs bs' : List (EItem V)} (h : bs.map EItem.view = bs'.map EItem.view) :
    ∀ (a a' : Acc (EnumSt V)), a.val.value = a'.val.value →
      (bs.foldl (enumAdd e pre) a).val.value = (bs'.foldl (enumAdd e' pre) a').val.value := by
  induction bs generalizing bs' with
  | nil =>
    cases bs' with
    | nil => exact fun a a' h1 => h1
    | cons b bs' => simp at h
  | cons b bs ih =>
    cases bs' with
    | nil => simp at h
    | cons b' bs' =>
      simp only [List.map_cons, List.cons.injEq] at h
      intro a a' h1
      simp only [List.foldl_cons]
      cases b with
      | variant i k sp x =>
        cases b' with
        | other k' sp' => cases h.1
        | variant i' k' sp' x' =>
          have := h.1
          simp only [EItem.view, Option.some.injEq, Prod.mk.injEq] at this
          obtain ⟨rfl, rfl, rfl⟩ := this
          exact ih h.2 _ _ (by simp only [enumAdd, h1, he])
      | other k sp =>
        cases b' with
        | variant i' k' sp' x' => cases h.1
        | other k' sp' => exact ih h.2 _ _ h1

/-! ## Keys -/

theorem checkKeys_renames {allowed allowed' : List Str} {R : Str → Str → Prop}
    (h : ∀ k k', R k k' → (k ∈ allowed ↔ k' ∈ allowed')) {l l' : List Stream} (hr : RekeyedAll R l l') :
    ∃ e1 e2 l1 l2, checkKeys allowed Errors.new l = (.ok e1, l1) ∧ checkKeys allowed' Errors.new l' = (.ok e2, l2) ∧
      (e1.toList = [] ↔ e2.toList = []) := by
  have hren : Renames R (fun x : Str × Span => allowed.contains x.1) (fun x => allowed'.contains x.1) keyItem keyItem := by
    refine keyed_renames (fun k sp s => ⟨by simp, skipMetaItem_adv s⟩) (fun k sp => skip_local _)
      (fun k sp s => ⟨by simp, skipMetaItem_adv s⟩) (fun k sp => skip_local _) (fun k k' sp hR s => ⟨rfl, ?_⟩)
    have := h k k' hR
    by_cases hk : k ∈ allowed
    · simp [Res.map, hk, this.1 hk]
    · have hk' : k' ∉ allowed' := fun x => hk (this.2 x)
      simp [Res.map, hk, hk']
  obtain ⟨rs, rs', fatal, l1, l1', h1, h2, h3⟩ := hr.reads hren
  obtain ⟨e1, q1, p1⟩ := checkKeys_reads allowed Errors.new h1
  obtain ⟨e2, q2, p2⟩ := checkKeys_reads allowed' Errors.new h2
  refine ⟨e1, e2, _, _, q1, q2, ?_⟩
  have hnil : ∀ (allowed : List Str) (rs : List ((Str × Span) × Stream × Stream)),
      checkMsgs true allowed (rs.map (·.1)) = [] ↔ (rs.map fun x => allowed.contains x.1.1).all id = true := by
    intro allowed rs
    simp only [checkMsgs, List.flatMap_eq_nil_iff, List.mem_map, forall_exists_index, and_imp, forall_apply_eq_imp_iff₂,
      List.all_eq_true, List.all_map]
    refine forall_congr' fun x => forall_congr' fun _ => ?_
    by_cases hx : x.1.1 ∈ allowed <;> simp [unknownMsgs, hx, SynErr.toList]
  rw [p1, p2, List.append_eq_nil_iff, List.append_eq_nil_iff, hnil, hnil, h3]

omit [Env] in
theorem conclude_new {e : EnumDef V} {value : FieldStatus (EnumVal V)} {errs : Errors} {y : EnumVal V}
    (h : conclude e value errs = .ok y) : errs = Errors.new := by
  apply Errors.eq_of_toList
  apply Classical.byContradiction
  intro hne
  obtain ⟨x, h1, _⟩ := conclude_msgs e (value := value) (errs := errs) hne (.refl _)
  rw [h1] at h
  cases h

omit [Env] in
theorem flatMatches_nil {e : EnumDef V} (hf : e.anyFlat = false) : e.flatMatches = [] := by
  cases h : e.flatMatches with
  | nil => rfl
  | cons z zs =>
    obtain ⟨_, h1, h2⟩ := mem_flatMatches (y := z) (by rw [h]; exact .head _)
    have : e.anyFlat = true := List.any_eq_true.2 ⟨z.2.1, List.mem_of_getElem? h1, by simp [h2.1, h2.2]⟩
    rw [hf] at this
    cases this

/-- **C123.**  Enums without flattened variants that differ in the names of their variants at most give the same value for
inputs that differ in the keys of the items in the same way. -/
theorem c123_enum {e e' : EnumDef V} {site : Site V} (he : e.Renamed e') (ha : e.Accepted site) (hg : e.FieldsFine)
    (hinf : e.Infallible) (hf : e.anyFlat = false)
    (hl : ∀ v ∈ e.variants, v.isTransparent = true → ∀ f ∈ v.fields, f.item.Local) (hn : ∀ v ∈ e.variants, v.NameBlind)
    (k : Span) (pre : Str) (validate : Bool) {R : Str → Str → Prop} (h : VariantKeysAgree e e' pre validate R) :
    Agree R (enumFlat e site (.named k) pre validate) (enumFlat e' site (.named k) pre validate) := by
  intro l l' hr y
  have ha' : e'.Accepted site := he.all ha fun v ns hv hs => ⟨(hv hs).1, (hv hs).2, (hv hs).3, (hv hs).4⟩
  have hg' : e'.FieldsFine := he.all hg fun v ns hv hs => ⟨(hv hs).1, (hv hs).2, (hv hs).3⟩
  have hinf' : e'.Infallible := he.all hinf fun v ns hv hs => hv hs
  have hl' : ∀ v ∈ e'.variants, v.isTransparent = true → ∀ f ∈ v.fields, f.item.Local := he.all hl fun v ns hv ht => hv ht
  have hf' : e'.anyFlat = false := by
    have h1 : ∀ v ∈ e.variants, (v.isFlatten && !v.isSkipped) = false := fun v hv => by
      simpa using (List.any_eq_false.1 hf) v hv
    refine List.any_eq_false.2 fun v hv => ?_
    simpa using he.all h1 (fun v ns hv => hv) v hv
  have hu : e'.unknownOk = e.unknownOk := by simp only [EnumDef.unknownOk, he.unknown]
  have hb := EnumDef.byNameGood ha hg hinf
  have hb' := EnumDef.byNameGood ha' hg' hinf'
  have hr' : RekeyedAll R (if e.anyFlat || !e.unknownOk then forkInputs l else l)
      (if e'.anyFlat || !e'.unknownOk then forkInputs l' else l') := by
    rw [hf, hf', hu]
    split
    · exact hr.fork
    · exact hr
  obtain ⟨rs, rs', fatal, l1, l1', h1, h2, h3⟩ := hr'.reads (enumItem_renames he hb hb' hl hl' hn h)
  obtain ⟨errs, q1, q2⟩ := enumFlat_eq hb (.named k) pre validate h1
  obtain ⟨errs', q1', q2'⟩ := enumFlat_eq hb' (.named k) pre validate h2
  have h3' : (rs.map (·.1)).map EItem.view = (rs'.map (·.1)).map EItem.view := by simpa [Function.comp_def] using h3
  have hnv : ∀ v i x, nextValue e v i x = nextValue e' v i x := by
    intro v i x
    have : (e.variants[i]?).any (·.isTransparent) = (e'.variants[i]?).any (·.isTransparent) := by
      cases hi : e.variants[i]? with
      | none =>
        have hi' : e'.variants[i]? = none := by
          rw [List.getElem?_eq_none_iff, he.length]
          exact List.getElem?_eq_none_iff.1 hi
        rw [hi']
      | some v =>
        obtain ⟨v', hv', hq⟩ := he.at hi
        rw [hv', hq]
        rfl
    cases x <;> simp only [nextValue, this]
  have hval : (afterItems e pre (rs.map (·.1))).val.value = (afterItems e' pre (rs'.map (·.1))).val.value :=
    view_values e e' pre hnv h3' _ _ rfl
  have hmsg : errs.toList = [] ↔ errs'.toList = [] := by
    rw [q1, q1', List.append_eq_nil_iff, List.append_eq_nil_iff, view_noMsgs pre h3' none none rfl]
  have hk : ∀ l, (Mode.named k).toFullSpan l = k := fun _ => rfl
  have hends : ∀ {e : EnumDef V} {st : EnumSt V} {errs : Errors} {l l2 : List Stream},
      enumFlat e site (.named k) pre validate l =
      (match pick e site pre k validate st errs l2 with
        | (.ok (value, errs), l2) => (conclude e value errs, skipAll l2)
        | (.err x, l2) => (.err x, l2)
        | (.panic, l2) => (.panic, l2)) →
      (enumFlat e site (.named k) pre validate l).1 = enumEnds e site pre k validate st errs l2 := by
    intro e st errs l l2 h
    rw [h]
    unfold enumEnds
    generalize pick e site pre k validate st errs l2 = z
    obtain ⟨r, l2⟩ := z
    cases r <;> rfl
  rw [hk] at q2 q2'
  rw [hends q2, hends q2']
  have hvp : ∃ r r' m m', validatePass e validate Errors.new (afterLoop e l l1) = (.ok r, m) ∧
      validatePass e' validate Errors.new (afterLoop e' l' l1') = (.ok r', m') ∧ (r.toList = [] ↔ r'.toList = []) := by
    unfold validatePass
    by_cases hc : (!e.unknownOk && validate) = true
    · have hc' : (!e'.unknownOk && validate) = true := by rw [hu]; exact hc
      rw [if_pos hc, if_pos hc']
      simp only [Bool.and_eq_true, Bool.not_eq_true'] at hc
      have e1 : afterLoop e l l1 = l := by simp [afterLoop, hc.1]
      have e2 : afterLoop e' l' l1' = l' := by simp [afterLoop, hu, hc.1]
      rw [e1, e2]
      exact checkKeys_renames (fun k k' hR => h.known k k' hR hc.1 hc.2) hr
    · have hc' : ¬ (!e'.unknownOk && validate) = true := by rw [hu]; exact hc
      rw [if_neg hc, if_neg hc']
      exact ⟨_, _, _, _, rfl, rfl, Iff.rfl⟩
  obtain ⟨r, r', m, m', v1, v2, v3⟩ := hvp
  have hcon : ∀ value errs, conclude e' value errs = conclude e value errs := by
    intro value errs
    simp only [conclude, he.andThens]
  have hkey : (afterItems e pre (rs.map (·.1))).val.value.isNone = false →
      (afterItems e pre (rs.map (·.1))).val.key.isSome = true := afterItems_some
  have hkey' : (afterItems e' pre (rs'.map (·.1))).val.value.isNone = false →
      (afterItems e' pre (rs'.map (·.1))).val.key.isSome = true := afterItems_some
  by_cases hz : errs.toList = []
  · have e1 : errs = Errors.new := Errors.eq_of_toList hz
    have e2 : errs' = Errors.new := Errors.eq_of_toList (hmsg.1 hz)
    subst e1; subst e2
    generalize (afterItems e pre (rs.map (·.1))).val = st at hval hkey ⊢
    generalize (afterItems e' pre (rs'.map (·.1))).val = st' at hval hkey' ⊢
    obtain ⟨key, value, paths⟩ := st
    obtain ⟨key', value', paths'⟩ := st'
    simp only at hval hkey hkey'
    subst hval
    have hsame : ∀ value, conclude e value r = .ok y ↔ conclude e' value r' = .ok y := by
      intro value
      constructor
      · intro hy
        have hr := conclude_new hy
        subst hr
        have : r' = Errors.new := Errors.eq_of_toList (v3.1 rfl)
        rw [this, hcon]; exact hy
      · intro hy
        have hr := conclude_new hy
        subst hr
        have : r = Errors.new := Errors.eq_of_toList (v3.2 rfl)
        rw [this, ← hcon]; exact hy
    unfold enumEnds
    cases value with
    | parseError => simp only [pick, hcon]
    | some x =>
      cases key with
      | none => cases hkey rfl
      | some a =>
        cases key' with
        | none => cases hkey' rfl
        | some b =>
          simp only [pick, hf, hf', Bool.false_and, Bool.false_eq_true, if_false, v1, v2]
          exact hsame _
    | none =>
      simp only [pick, pickFlat, flatMatches_nil hf, flatMatches_nil hf', List.find?_nil, he.default]
      cases e.default with
      | some d => simp only [hcon]
      | none =>
        simp only [v1, v2]
        constructor <;>
        · intro hy
          have := conclude_new hy
          have hx := congrArg Errors.toList this
          simp [variantRequired] at hx
  · constructor
    · exact fun h => absurd (enumEnds_ok h) hz
    · exact fun h => absurd (hmsg.2 (enumEnds_ok h)) hz

/-! ## Renaming -/

/-- The enum with other names of its variants. -/
def EnumDef.rename (ρ : Str → Str) (e : EnumDef V) : EnumDef V :=
  { e with variants := e.variants.map fun v => { v with idents := v.idents.map ρ } }

omit [Env] in
theorem EnumDef.rename_renamed (ρ : Str → Str) (e : EnumDef V) : e.Renamed (e.rename ρ) where
  length := by simp [EnumDef.rename]
  variant i v v' h1 h2 := by
    simp only [EnumDef.rename, List.getElem?_map, h1, Option.map_some, Option.some.injEq] at h2
    rw [← h2]
  default := rfl
  unknown := rfl
  andThens := rfl

omit [Env] in
theorem selects_rename {ρ : Str → Str} (hρ : ∀ a b, ρ a = ρ b → a = b) (e : EnumDef V) (pre k : Str) (i : Nat) :
    (∃ n v, Selects e.variants pre (pre ++ k) n v i) ↔ ∃ n v, Selects (e.rename ρ).variants pre (pre ++ ρ k) n v i := by
  have mem : ∀ (l : List Str) (k : Str), ρ k ∈ l.map ρ ↔ k ∈ l := by
    intro l k
    simp only [List.mem_map]
    exact ⟨fun ⟨a, h1, h2⟩ => hρ _ _ h2 ▸ h1, fun h => ⟨k, h, rfl⟩⟩
  constructor
  · rintro ⟨n, v, h1, h2, h3, h4, h5⟩
    obtain rfl := List.append_cancel_left h1
    refine ⟨ρ k, { v with idents := v.idents.map ρ }, rfl, by simp [EnumDef.rename, h2], h3, (mem _ _).2 h4,
      fun j w hj hw hwb hn => ?_⟩
    simp only [EnumDef.rename, List.getElem?_map, Option.map_eq_some_iff] at hw
    obtain ⟨w, hw, rfl⟩ := hw
    exact h5 j w hj hw hwb ((mem _ _).1 hn)
  · rintro ⟨n, v', h1, h2, h3, h4, h5⟩
    obtain rfl := List.append_cancel_left h1
    simp only [EnumDef.rename, List.getElem?_map, Option.map_eq_some_iff] at h2
    obtain ⟨v, hv, rfl⟩ := h2
    exact ⟨k, v, rfl, hv, h3, (mem _ _).1 h4, fun j w hj hw hwb hn =>
      h5 j { w with idents := w.idents.map ρ } hj (by simp [EnumDef.rename, hw]) hwb ((mem _ _).2 hn)⟩

/-- **C123.**  Renaming variants changes their keys and nothing else: an enum without flattened variants gives the same value
under its new names. -/
theorem c123_enum_rename (e : EnumDef V) (ρ : Str → Str) (hρ : ∀ a b, ρ a = ρ b → a = b) (site : Site V)
    (ha : e.Accepted site) (hg : e.FieldsFine) (hinf : e.Infallible) (hf : ∀ v ∈ e.variants, v.isFlatten = false)
    (hl : ∀ v ∈ e.variants, v.isTransparent = true → ∀ f ∈ v.fields, f.item.Local) (hn : ∀ v ∈ e.variants, v.NameBlind)
    (k : Span) (pre : Str) (validate : Bool) (hpre : validate = true → pre = []) :
    Agree (fun key key' => ∃ n, key = pre ++ n ∧ key' = pre ++ ρ n) (enumFlat e site (.named k) pre validate)
      (enumFlat (e.rename ρ) site (.named k) pre validate) := by
  refine c123_enum (e.rename_renamed ρ) ha hg hinf ?_ hl hn k pre validate ⟨?_, ?_⟩
  · exact List.any_eq_false.2 fun v hv => by simp [hf v hv]
  · rintro key key' ⟨n, rfl, rfl⟩ i
    exact selects_rename hρ e pre n i
  · rintro key key' ⟨n, rfl, rfl⟩ _ hv
    have hnames : (e.rename ρ).fieldNames = e.fieldNames.map ρ := by
      simp only [EnumDef.fieldNames, EnumDef.rename, List.flatMap_map, List.map_flatMap]
      simp only [List.flatMap_def]
      congr 1
      apply List.map_congr_left
      intro v hv
      have h1 := hf v hv
      have h2 : ({ v with idents := v.idents.map ρ } : Variant V).isFlatten = false := h1
      simp only [Variant.names, h1, h2, Bool.false_eq_true, if_false, Variant.isSkipped]
      by_cases hs : v.skip.getD false = true <;> simp [hs]
    rw [hnames, hpre hv]
    exact ⟨fun h => List.mem_map_of_mem h, fun h => by
      obtain ⟨a, h1, h2⟩ := List.mem_map.1 h
      exact hρ _ _ h2 ▸ h1⟩

/-! ## Examples -/

/-- C123: the conditions are met by `twoNames`, … -/
example : twoNames.Accepted .meta ∧ twoNames.FieldsFine ∧ twoNames.Infallible ∧
    (∀ v ∈ twoNames.variants, v.isFlatten = false) ∧
    (∀ v ∈ twoNames.variants, v.isTransparent = true → ∀ f ∈ v.fields, f.item.Local) ∧
    (∀ v ∈ twoNames.variants, v.NameBlind) ∧
    Rekeyed (fun key key' => ∃ n, key = [] ++ n ∧ key' = [] ++ swapAC n)
      [.ident ['a'] 1, .group .brace [.ident ['x'] 2] 3 4] [.ident ['c'] 1, .group .brace [.ident ['x'] 2] 3 4] := by
  have hv : ∀ v ∈ twoNames.variants, ∃ a b c d, v = boolVariant a b c d := by
    intro v hv
    simp only [twoNames, List.mem_cons, List.not_mem_nil, or_false] at hv
    rcases hv with rfl | rfl <;> exact ⟨_, _, _, _, rfl⟩
  obtain ⟨h1, h2, h3⟩ := boolEnum_fine (e := twoNames) hv
  have ht : ∀ v ∈ twoNames.variants, v.isTransparent = false ∧ v.isFlatten = false := by
    intro v h
    simp only [twoNames, List.mem_cons, List.not_mem_nil, or_false] at h
    rcases h with rfl | rfl <;> exact ⟨rfl, rfl⟩
  have key : ∀ (s : Str) (sp : Span), KeyToks [s] sp (.ident s sp :: [.group .brace [.ident ['x'] 2] 3 4])
      [.group .brace [.ident ['x'] 2] 3 4] := fun s sp => .mk (pt := [.ident s sp]) (.plain (.one _ _)) (by simp [StartsColon2])
  refine ⟨h1, h2, h3, fun v hv => (ht v hv).2, fun v hv h => ?_, fun v hv h => ?_,
    .last (key _ _) (key _ _) ⟨['a'], rfl, by decide⟩ (by simp [NoComma, Comma])⟩
  · rw [(ht v hv).1] at h; cases h
  · rw [(ht v hv).1] at h; cases h

/-- … and `{c(x)}` is for the renamed enum what `{a(x)}` is for the enum; it does not know `a`. -/
example : letI : Env := ⟨fun a _ => some a, fun _ _ => 0, 1⟩
    ((twoNames.dict.parse (.named 0) ⟨[.group .brace [.ident ['a'] 1, .group .paren [.ident ['x'] 2] 3 4] 8 9], 0, none⟩).1
      matches .ok (0, [true])) ∧
    (((twoNames.rename swapAC).dict.parse (.named 0)
      ⟨[.group .brace [.ident ['c'] 1, .group .paren [.ident ['x'] 2] 3 4] 8 9], 0, none⟩).1 matches .ok (0, [true])) ∧
    (((twoNames.rename swapAC).dict.parse (.named 0)
      ⟨[.group .brace [.ident ['a'] 1, .group .paren [.ident ['x'] 2] 3 4] 8 9], 0, none⟩).1 matches .err _) := by
  decide +kernel

end
end Deluxe
