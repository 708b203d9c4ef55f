import Verif.Props.Extended
import Verif.Props.EnumKeys
/-!
# C119 for enums

An enum is extended when variants selected by name are added at its end and when its variants get further names.  If the
new names were no keys of the enum before, every input without a new name is read as before, and leaves the same.  For
enums that check all keys this is every input that was accepted.  Enums with a default accept any keys if there is no
variant among them, so there it may not be: what was the default may now be the new variant.
-/
namespace Deluxe

variable {V : Type}

/-- The variants of an extended enum: `New` are the new names. -/
inductive VariantsGrow (New : Str → Prop) : List (Variant V) → List (Variant V) → Prop
  | added {ws} : (∀ w ∈ ws, w.isFlatten = false ∧ ∀ k ∈ w.idents, New k) → VariantsGrow New [] ws
  | kept {v more vs ws} : (v.isFlatten = true → more = []) → (∀ k ∈ more, New k) → VariantsGrow New vs ws →
      VariantsGrow New (v :: vs) ({ v with idents := v.idents ++ more } :: ws)

/-- `e'` is the enum `e`, extended by the names `New`. -/
structure EnumDef.Grows (New : Str → Prop) (e e' : EnumDef V) : Prop where
  variants : VariantsGrow New e.variants e'.variants
  fresh : ∀ k, New k → k ∉ e.fieldNames
  default : e'.default = e.default
  unknown : e'.allowUnknown = e.allowUnknown
  thens : e'.andThens = e.andThens

section
variable {New : Str → Prop} {e e' : EnumDef V}

theorem Variant.isFlatten_idents (v : Variant V) (m : List Str) : ({ v with idents := m } : Variant V).isFlatten = v.isFlatten :=
  rfl

theorem Variant.isSkipped_idents (v : Variant V) (m : List Str) : ({ v with idents := m } : Variant V).isSkipped = v.isSkipped :=
  rfl

theorem Variant.names_idents (v : Variant V) (m : List Str) : ({ v with idents := m } : Variant V).names =
    if v.isFlatten then v.names else if v.isSkipped then [] else m := by
  have h1 := v.isFlatten_idents m
  have h2 := v.isSkipped_idents m
  unfold Variant.names
  rw [h1, h2]
  cases v.isFlatten <;> rfl

theorem VariantsGrow.find {vs ws : List (Variant V)} (h : VariantsGrow New vs ws) {k : Str} (hk : ¬ New k) (n : Nat) :
    ∃ f : Variant V → List Str, (ws.zipIdx n).find? (fun x => !x.1.isFlatten && !x.1.isSkipped && x.1.idents.contains k) =
      ((vs.zipIdx n).find? fun x => !x.1.isFlatten && !x.1.isSkipped && x.1.idents.contains k).map
        fun x => ({ x.1 with idents := f x.1 }, x.2) := by
  induction h generalizing n with
  | @added ws h =>
    refine ⟨fun _ => [], ?_⟩
    simp only [List.zipIdx_nil, List.find?_nil, Option.map_none, List.find?_eq_none]
    intro x hx
    have := h x.1 (List.fst_mem_of_mem_zipIdx hx)
    have hn : k ∉ x.1.idents := fun hm => hk (this.2 k hm)
    simp [hn]
  | @kept v more vs ws h1 h2 h3 ih =>
    have hm : k ∉ more := fun hm => hk (h2 k hm)
    simp only [List.zipIdx_cons, List.find?_cons, List.contains_eq_mem, List.mem_append, hm, or_false,
      Variant.isFlatten_idents, Variant.isSkipped_idents]
    cases hq : (!v.isFlatten && !v.isSkipped && decide (k ∈ v.idents)) with
    | true => exact ⟨fun _ => v.idents ++ more, rfl⟩
    | false =>
      obtain ⟨f, hf⟩ := ih (n + 1)
      refine ⟨f, ?_⟩
      simpa only [List.contains_eq_mem] using hf

theorem VariantsGrow.filter {vs ws : List (Variant V)} (h : VariantsGrow New vs ws) (n : Nat) :
    (ws.zipIdx n).filter (fun x => !x.1.isSkipped && x.1.isFlatten) =
      (vs.zipIdx n).filter (fun x => !x.1.isSkipped && x.1.isFlatten) := by
  induction h generalizing n with
  | @added ws h =>
    simp only [List.zipIdx_nil, List.filter_nil, List.filter_eq_nil_iff]
    intro x hx
    simp [(h x.1 (List.fst_mem_of_mem_zipIdx hx)).1]
  | @kept v more vs ws h1 h2 h3 ih =>
    simp only [List.zipIdx_cons, List.filter_cons, ih, Variant.isFlatten_idents, Variant.isSkipped_idents]
    cases hf : v.isFlatten with
    | false => simp
    | true => rw [h1 hf, List.append_nil]

theorem VariantsGrow.any {vs ws : List (Variant V)} (h : VariantsGrow New vs ws) :
    (ws.any fun v => v.isFlatten && !v.isSkipped) = vs.any fun v => v.isFlatten && !v.isSkipped := by
  induction h with
  | added h =>
    simp only [List.any_nil, List.any_eq_false]
    intro w hw
    simp [(h w hw).1]
  | kept h1 h2 h3 ih => simp only [List.any_cons, ih, Variant.isFlatten_idents, Variant.isSkipped_idents]

theorem VariantsGrow.flatNames {vs ws : List (Variant V)} (h : VariantsGrow New vs ws) (i : Option Nat) (n : Nat) :
    (ws.zipIdx n).flatMap (fun x => if some x.2 = i then [] else x.1.flatNames) =
      (vs.zipIdx n).flatMap (fun x => if some x.2 = i then [] else x.1.flatNames) := by
  induction h generalizing n with
  | @added ws h =>
    simp only [List.zipIdx_nil, List.flatMap_nil, List.flatMap_eq_nil_iff]
    intro x hx
    have := (h x.1 (List.fst_mem_of_mem_zipIdx hx)).1
    simp [Variant.flatNames, this]
  | @kept v more vs ws h1 h2 h3 ih =>
    simp only [List.zipIdx_cons, List.flatMap_cons, ih]
    rfl

theorem VariantsGrow.names {vs ws : List (Variant V)} (h : VariantsGrow New vs ws) :
    ∀ k ∈ vs.flatMap (·.names), k ∈ ws.flatMap (·.names) := by
  induction h with
  | added h => simp
  | @kept v more vs ws h1 h2 h3 ih =>
    intro k hk
    simp only [List.flatMap_cons, List.mem_append] at hk ⊢
    refine hk.imp (fun hk => ?_) (ih k)
    rw [Variant.names_idents]
    split
    · exact hk
    · rename_i hf
      unfold Variant.names at hk
      rw [if_neg hf] at hk
      split
      · rename_i hs; rw [if_pos hs] at hk; exact hk
      · rename_i hs; rw [if_neg hs] at hk; exact List.mem_append_left _ hk

theorem VariantsGrow.transparent {vs ws : List (Variant V)} (h : VariantsGrow New vs ws) {i : Nat} (hi : i < vs.length) :
    (ws[i]?).any (·.isTransparent) = (vs[i]?).any (·.isTransparent) := by
  induction h generalizing i with
  | added h => cases hi
  | kept h1 h2 h3 ih =>
    cases i with
    | zero => rfl
    | succ i => simpa using ih (Nat.lt_of_succ_lt_succ hi)

namespace EnumDef.Grows

theorem anyFlat (h : EnumDef.Grows New e e') : e'.anyFlat = e.anyFlat := h.variants.any

theorem unknownOk (h : EnumDef.Grows New e e') : e'.unknownOk = e.unknownOk := by
  unfold EnumDef.unknownOk; rw [h.unknown]

theorem flatMatches (h : EnumDef.Grows New e e') : e'.flatMatches = e.flatMatches := by
  unfold EnumDef.flatMatches; rw [h.variants.filter]

theorem otherNames (h : EnumDef.Grows New e e') (i : Option Nat) : otherFlatNames e' i = otherFlatNames e i :=
  h.variants.flatNames i 0

section
variable [Env]

/-- An item whose key is not a new name is read in the same way. -/
theorem item (h : EnumDef.Grows New e e') (site : Site V) (pre key : Str) (sp : Span)
    (hk : ∀ k, key = pre ++ k → ¬ New k) : enumValue e' site pre key sp = enumValue e site pre key sp := by
  unfold enumValue selected
  cases hp : stripPrefix pre key with
  | none => rfl
  | some k =>
    obtain ⟨f, hf⟩ := h.variants.find (hk k ((stripPrefix_iff _ _ _).1 hp)) 0
    simp only [Option.bind_some, findVariant, hf]
    cases (e.variants.zipIdx.find? fun x => !x.1.isFlatten && !x.1.isSkipped && x.1.idents.contains k) with
    | none => rfl
    | some x => rfl

omit [Env] in
theorem add (h : EnumDef.Grows New e e') (pre : Str) (acc : Acc (EnumSt V)) (b : EItem V)
    (hb : ∀ i k sp x, b = .variant i k sp x → i < e.variants.length) : enumAdd e' pre acc b = enumAdd e pre acc b := by
  have hp : ∀ paths key sp, nextPaths e' pre paths key sp = nextPaths e pre paths key sp := by
    intro paths key sp
    unfold nextPaths
    rw [h.anyFlat]
  cases b with
  | other key sp => simp only [enumAdd, hp]
  | variant i k sp x =>
    have hv : nextValue e' acc.val.value i x = nextValue e acc.val.value i x := by
      cases x with
      | ok x => simp only [nextValue, h.variants.transparent (hb i k sp _ rfl)]
      | error x => rfl
    simp only [enumAdd, hp, hv]

end
end EnumDef.Grows

end

section
variable [Env] {New : Str → Prop} {e e' : EnumDef V}

omit [Env] in
theorem Errors.eq_new {errs : Errors} (h : errs.toList = []) : errs = Errors.new := by
  obtain ⟨_ | x⟩ := errs
  · rfl
  · simp [Errors.toList, SynErr.toList] at h

omit [Env] in
theorem Errors.ext {a b : Errors} (h : a.toList = b.toList) : a = b := by
  obtain ⟨_ | ⟨x, xs⟩⟩ := a <;> obtain ⟨_ | ⟨y, ys⟩⟩ := b <;> simp_all [Errors.toList, SynErr.toList]

theorem checkKeys_mono {A B : List Str} (hs : ∀ k ∈ A, k ∈ B) {errs errs' : Errors} {l l' : List Stream}
    (h : checkKeys A errs l = (.ok errs', l')) (hn : errs'.toList = []) : checkKeys B errs l = (.ok errs', l') := by
  obtain ⟨rs, fatal, l1, hr⟩ := ReadsAll.exists keyItem_good l
  obtain ⟨e1, h1, h2⟩ := checkKeys_reads A errs hr
  obtain ⟨e2, h3, h4⟩ := checkKeys_reads B errs hr
  rw [h] at h1
  cases h1
  rw [hn] at h2
  have h5 := List.append_eq_nil_iff.1 h2.symm
  have h6 : e2.toList = [] := by
    rw [h4, h5.1, List.nil_append, checkMsgs_nil]
    intro _ k hk
    have := h5.2
    rw [checkMsgs_nil] at this
    exact hs _ (this rfl k hk)
  rw [h3, Errors.eq_new hn, Errors.eq_new h6]

theorem validatePass_grows (h : EnumDef.Grows New e e') {validate : Bool} {errs errs' : Errors} {l l' : List Stream}
    (hv : validatePass e validate errs l = (.ok errs', l')) (hn : errs'.toList = []) :
    validatePass e' validate errs l = (.ok errs', l') := by
  unfold validatePass at hv ⊢
  rw [h.unknownOk]
  split at hv
  · rename_i hc
    rw [if_pos hc]
    exact checkKeys_mono h.variants.names hv hn
  · rename_i hc
    rw [if_neg hc]
    exact hv

theorem flatBlock_grows (h : EnumDef.Grows New e e') {site : Site V} {pre : Str} {span : Span} {paths : PathMap}
    {v : Variant V} {i : Nat} {empty : Bool} {errs : Errors} {l l2 : List Stream} {x}
    (hp : flatBlock e site pre span paths v i empty errs l = (.ok x, l2)) :
    flatBlock e' site pre span paths v i empty errs l = (.ok x, l2) := by
  have hc : ∀ errs1, emptyCheck e v pre span errs l = .ok errs1 → emptyCheck e' v pre span errs l = .ok errs1 := by
    intro errs1 h1
    unfold emptyCheck at h1 ⊢
    split
    · rename_i hq; rw [if_pos hq] at h1; exact h1
    · rename_i hq
      rw [if_neg hq] at h1
      cases hx : (checkKeys (Field.fieldNames v.fields) errs (forkInputs l)).1 with
      | err x => rw [hx] at h1; cases h1
      | panic => rw [hx] at h1; cases h1
      | ok e1 =>
        rw [hx] at h1
        dsimp only at h1 ⊢
        split
        · rename_i hq; rw [if_pos hq] at h1; exact h1
        · rename_i hq
          rw [if_neg hq] at h1
          unfold Errors.bail at h1
          split at h1 <;> cases h1
  unfold flatBlock at hp ⊢
  simp only [h.unknownOk, h.otherNames] at hp ⊢
  by_cases hq : (empty && !v.allowUnknown.getD false && !v.acceptsAll) = true
  · simp only [hq, if_true] at hp ⊢
    cases hx : emptyCheck e v pre span errs l with
    | ok e1 => rw [hx] at hp; rw [hc e1 hx]; exact hp
    | err x => rw [hx] at hp; cases hp
    | panic => rw [hx] at hp; cases hp
  · simp only [hq] at hp ⊢
    exact hp

theorem pick_grows (h : EnumDef.Grows New e e') {site : Site V} {pre : Str} {span : Span} {validate : Bool}
    {st : EnumSt V} {errs errs' : Errors} {l l2 : List Stream} {value}
    (hp : pick e site pre span validate st errs l = (.ok (value, errs'), l2)) (hn : errs'.toList = []) :
    pick e' site pre span validate st errs l = (.ok (value, errs'), l2) := by
  unfold pick at hp ⊢
  cases hv : st.value with
  | parseError => rw [hv] at hp; exact hp
  | some x =>
    rw [hv] at hp
    dsimp only at hp ⊢
    cases hk : st.key with
    | none => rw [hk] at hp; cases hp
    | some key =>
      rw [hk] at hp
      simp only [h.anyFlat, h.unknownOk, h.otherNames] at hp ⊢
      generalize (if (e.anyFlat && !e.unknownOk && !validate) = true then
        disallowPaths (st.paths.remove key) (otherFlatNames e none) key errs else errs) = errs0 at hp ⊢
      cases hx : validatePass e validate errs0 l with
      | mk r l1 =>
        rw [hx] at hp
        cases r with
        | err x => cases hp
        | panic => cases hp
        | ok e1 =>
          cases hp
          rw [validatePass_grows h hx hn]
  | none =>
    rw [hv] at hp
    dsimp only at hp ⊢
    unfold pickFlat at hp ⊢
    rw [h.flatMatches]
    split
    · rename_i hf
      rw [hf] at hp
      exact flatBlock_grows h hp
    · rename_i hf
      rw [hf] at hp
      dsimp only at hp
      split
      · rename_i hf
        rw [hf] at hp
        exact flatBlock_grows h hp
      · rename_i hf
        rw [hf] at hp
        dsimp only at hp
        rw [h.default]
        cases hd : e.default with
        | some x => rw [hd] at hp; exact hp
        | none =>
          rw [hd] at hp
          dsimp only at hp
          cases hx : validatePass e validate errs l with
          | mk r l1 =>
            rw [hx] at hp
            cases r with
            | err x => cases hp
            | panic => cases hp
            | ok e1 =>
              cases hp
              simp [variantRequired] at hn

omit [Env] in
theorem Selects.known {pre key k : Str} {v : Variant V} {i : Nat} (h : Selects e.variants pre key k v i) :
    k ∈ e.fieldNames := by
  refine List.mem_flatMap.2 ⟨v, List.mem_of_getElem? h.2.1, ?_⟩
  unfold Variant.names
  rw [h.2.2.1.1, h.2.2.1.2]
  exact h.2.2.2.1

/-- What an enum makes of a key. -/
theorem enumValue_key {site : Site V} {pre key : Str} {sp : Span} {s : Stream} {b s1}
    (h : enumValue e site pre key sp s = (.ok b, s1)) : b = .other key sp ∨
      ∃ i k x v, b = .variant i k sp x ∧ Selects e.variants pre key k v i := by
  unfold enumValue at h
  cases hs : selected e.variants pre key with
  | none => rw [hs] at h; cases h; exact .inl rfl
  | some y =>
    obtain ⟨k, v, i⟩ := y
    rw [hs] at h
    right
    simp only [M.map] at h
    generalize recover (v.item site pre key sp) s = r at h
    obtain ⟨r, s2⟩ := r
    cases r with
    | ok x => cases h; exact ⟨i, k, x, v, rfl, (selected_some _ _ _ _ _ _).1 hs⟩
    | err x => cases h
    | panic => cases h

theorem enumItem_grows (h : EnumDef.Grows New e e') {site : Site V} {pre : Str} {s : Stream} {b s1}
    (hi : enumItem e site pre s = (.ok b, s1)) (hk : ∀ key sp, b = .other key sp → ∀ k, New k → key ≠ pre ++ k) :
    enumItem e' site pre s = (.ok b, s1) := by
  unfold enumItem keyed at hi ⊢
  cases hp : parseAnyPath s with
  | mk r s2 =>
    rw [hp] at hi
    cases r with
    | err x => cases hi
    | panic => cases hi
    | ok p =>
      dsimp only at hi ⊢
      rw [h.item]
      · exact hi
      · intro k he hn
        rcases enumValue_key hi with h1 | ⟨i, k', x, v, h1, h2⟩
        · exact hk _ _ h1 k hn he
        · have := h2.1.symm.trans he
          have := List.append_cancel_left this
          subst this
          exact h.fresh _ hn h2.known

omit [Env] in
theorem conclude_clean {value : FieldStatus (EnumVal V)} {errs : Errors} {y} (h : conclude e value errs = .ok y) :
    errs.toList = [] := by
  by_cases hn : errs.toList = []
  · exact hn
  · obtain ⟨x, h1, -⟩ := conclude_msgs e (value := value) hn (List.Sublist.refl _)
    rw [h] at h1
    cases h1

/-- The enum on items none of which has a new name. -/
theorem enumFlat_grows (h : EnumDef.Grows New e e') {site : Site V} (hb : ByNameGood e site) (hb' : ByNameGood e' site)
    (mode : Mode) (pre : Str) (validate : Bool) {l rs l1}
    (hr : ReadsAll (enumItem e site pre) (if e.anyFlat || !e.unknownOk then forkInputs l else l) rs none l1)
    (hk : ∀ key sp, .other key sp ∈ rs.map (·.1) → ∀ k, New k → key ≠ pre ++ k)
    {y} (hok : (enumFlat e site mode pre validate l).1 = .ok y) :
    enumFlat e' site mode pre validate l = enumFlat e site mode pre validate l := by
  have hr' : ReadsAll (enumItem e' site pre) (if e'.anyFlat || !e'.unknownOk then forkInputs l else l) rs none l1 := by
    rw [h.anyFlat, h.unknownOk]
    exact hr.congr_ok rfl fun s b s1 hs hm => enumItem_grows h hs fun key sp he => hk key sp (he ▸ hm)
  have ha : afterItems e' pre (rs.map (·.1)) = afterItems e pre (rs.map (·.1)) := by
    unfold afterItems
    have hm : ∀ b ∈ rs.map (·.1), ∀ i k sp x, b = EItem.variant i k sp x → i < e.variants.length := by
      intro b hb i k sp x he
      obtain ⟨r, hr1, rfl⟩ := List.mem_map.1 hb
      have hi := hr.mem r hr1
      rw [he] at hi
      unfold enumItem keyed at hi
      split at hi
      · rcases enumValue_key hi with h1 | ⟨i', k', x', v, h1, h2⟩
        · cases h1
        · cases h1; exact h2.mem.2.2
      · cases hi
      · cases hi
    generalize (⟨⟨none, .none, []⟩, Errors.new⟩ : Acc (EnumSt V)) = acc
    generalize rs.map (·.1) = bs at hm
    clear hok hk hr hr'
    induction bs generalizing acc with
    | nil => rfl
    | cons b bs ih =>
      simp only [List.foldl_cons]
      rw [h.add pre acc b (hm b List.mem_cons_self)]
      exact ih _ (fun b' hb' => hm b' (List.mem_cons_of_mem _ hb'))
  obtain ⟨errs, h1, h2⟩ := enumFlat_eq hb mode pre validate hr
  obtain ⟨errs', h3, h4⟩ := enumFlat_eq hb' mode pre validate hr'
  obtain rfl : errs = errs' := Errors.ext (h1.trans h3.symm)
  have hl : afterLoop e' l l1 = afterLoop e l l1 := by
    unfold afterLoop
    rw [h.anyFlat, h.unknownOk]
  rw [hl, ha] at h4
  rw [h2] at hok
  rw [h4, h2]
  generalize hp : pick e site pre (mode.toFullSpan l) validate (afterItems e pre (rs.map (·.1))).val errs
    (afterLoop e l l1) = r at hok
  obtain ⟨r, l2⟩ := r
  cases r with
  | err x => cases hok
  | panic => cases hok
  | ok x =>
    obtain ⟨value, errs1⟩ := x
    rw [pick_grows h hp (conclude_clean hok)]
    have : conclude e' value errs1 = conclude e value errs1 := by
      unfold conclude
      rw [h.thens]
    simp only [this]

/-- C119 for enums, flattened ones and those of the attributes too (`pre` is the prefix of the keys): if no item of the
input has a new name, whatever was read before is read now, as the same value, and leaves the same. -/
theorem c119_enum (h : EnumDef.Grows New e e') {site : Site V} (ha : e.Accepted site) (hg : e.FieldsFine)
    (hn : e.Infallible) (ha' : e'.Accepted site) (hg' : e'.FieldsFine) (hn' : e'.Infallible) (mode : Mode) (pre : Str)
    (validate : Bool) {l bs} (hi : ItemsAll (EnumSeg e site pre) l bs)
    (hk : ∀ key sp, .other key sp ∈ bs → ∀ k, New k → key ≠ pre ++ k) {y}
    (hok : (enumFlat e site mode pre validate l).1 = .ok y) :
    enumFlat e' site mode pre validate l = enumFlat e site mode pre validate l := by
  obtain ⟨rs, l1, h1, rfl⟩ := enumItems (e.anyFlat || !e.unknownOk) hi
  exact enumFlat_grows h (e.byNameGood ha hg hn) (e'.byNameGood ha' hg' hn') mode pre validate h1 hk hok

/-- C119 for enums that check their keys: every input that was accepted is read as before, if one of its items names a
variant.  If none does this needs that the enum has no flattened variants and no default, which may take other keys. -/
theorem c119_enum_checked (h : EnumDef.Grows New e e') (ha : e.Accepted .meta) (hg : e.FieldsFine)
    (hn : e.Infallible) (ha' : e'.Accepted .meta) (hg' : e'.FieldsFine) (hn' : e'.Infallible) (hu : e.unknownOk = false)
    (mode : Mode) {l bs} (hi : ItemsAll (EnumSeg e .meta []) l bs)
    (hd : named bs = [] → e.anyFlat = false ∧ e.default = none) {y} (hok : (e.dict.inline mode l).1 = .ok y) :
    e'.dict.inline mode l = e.dict.inline mode l := by
  have hok' : (enumFlat e .meta mode [] true l).1 = .ok y := hok
  refine c119_enum h ha hg hn ha' hg' hn' mode [] true hi (fun key sp hm k hk he => h.fresh k hk ?_) hok'
  obtain ⟨rs, l1, x, h1, -, h3⟩ := c43_value ha hg hn mode [] true hok'
  obtain ⟨rs', l1', h4, rfl⟩ := enumItems (e.anyFlat || !e.unknownOk) hi
  obtain ⟨rfl, -, -⟩ := ReadsAll.unique (enumItem_good (e.byNameGood ha hg hn) []) h1 h4
  rcases h3 with ⟨k', sp', h5⟩ | ⟨h5, l', -, h6⟩
  · have := ((c43_one_ok ha hg hn mode [] hi h5 y).1 hok').1 hu (key, sp)
      (List.mem_map.2 ⟨_, hm, rfl⟩)
    rw [List.nil_append] at he
    rwa [← he]
  · obtain ⟨h7, h8⟩ := hd h5
    cases h6 with
    | @flat i v vs check h9 h10 _ =>
      have : e.anyFlat = true := List.any_eq_true.2 ⟨v, List.mem_of_getElem? h9, by simp [h10.1, h10.2]⟩
      rw [h7] at this
      cases this
    | default h9 =>
      rw [h8] at h9
      cases h9

/-! ## Cases -/

/-- `demoEnum` with a further name of its first variant and a further variant `C { y: bool }`. -/
def grownEnum : EnumDef Bool where
  variants :=
    [boolVariant "A" ["a", "aa", "aaa"] false [("x", none)], boolVariant "B" ["b"] false [],
      boolVariant "D" ["d"] true [("p", none), ("q", some false)],
      boolVariant "F" ["f"] true [("r", some true)], boolVariant "C" ["c"] false [("y", none)]]
  default := none
  allowUnknown := none
  andThens := []

omit [Env] in
/-- C119: `demoEnum` grows to it. -/
theorem demoEnum_grows : EnumDef.Grows (· ∈ ["aaa".toList, "c".toList]) demoEnum grownEnum where
  variants := by
    refine .kept (more := ["aaa".toList]) (fun h => (by cases h)) (by simp) (.kept (more := []) (fun _ => rfl) (by simp)
      (.kept (more := []) (fun _ => rfl) (by simp) (.kept (more := []) (fun _ => rfl) (by simp) (.added ?_))))
    intro w hw
    simp only [List.mem_cons, List.not_mem_nil, or_false] at hw
    subst hw
    exact ⟨rfl, by simp [boolVariant]⟩
  fresh := by
    intro k hk
    simp only [List.mem_cons, List.not_mem_nil, or_false] at hk
    rcases hk with rfl | rfl <;> decide
  default := rfl
  unknown := rfl
  thens := rfl

omit [Env] in
theorem grownEnum_fine : grownEnum.Accepted .meta ∧ grownEnum.FieldsFine ∧ grownEnum.Infallible := by
  refine boolEnum_fine fun v hv => ?_
  simp only [grownEnum, List.mem_cons, List.not_mem_nil, or_false] at hv
  rcases hv with rfl | rfl | rfl | rfl | rfl <;> exact ⟨_, _, _, _, rfl⟩

/-- C119: the hypotheses hold for `demoEnum` and `aa(x = true), p = false`, and so `grownEnum` reads it alike. -/
example : (grownEnum.dict.inline (.named 0) [⟨demoEnumToks, 11, none⟩]).1 = .ok (0, [true]) := by
  have hok : (demoEnum.dict.inline (.named 0) [⟨demoEnumToks, 11, none⟩]).1 = .ok (0, [true]) :=
    (c43_one_ok demoEnum_fine.1 demoEnum_fine.2.1 demoEnum_fine.2.2 (.named 0) [] demoEnum_items rfl _).2
      ⟨fun _ => by decide, _, rfl, rfl⟩
  rw [c119_enum_checked demoEnum_grows demoEnum_fine.1 demoEnum_fine.2.1 demoEnum_fine.2.2 grownEnum_fine.1
    grownEnum_fine.2.1 grownEnum_fine.2.2 rfl (.named 0) demoEnum_items (fun h => (by cases h)) hok]
  exact hok

/-- An enum with the default `A { x: true }`, before and after it gets the further variant `C {}`. -/
def defaultedEnum : EnumDef Bool := ⟨[boolVariant "A" ["a"] false [("x", none)]], some (0, [true]), none, []⟩

def defaultedGrown : EnumDef Bool :=
  ⟨[boolVariant "A" ["a"] false [("x", none)], boolVariant "C" ["c"] false []], some (0, [true]), none, []⟩

/-- C119 fails for enums with a default: `c` was not known and gave the default, now it is the new variant. -/
theorem c119_enum_default_violated : ∃ (e e' : EnumDef Bool) (l : List Stream), e.unknownOk = false ∧
    EnumDef.Grows (· = "c".toList) e e' ∧ (e.dict.inline (.named 0) l).1 = .ok (0, [true]) ∧
    (e'.dict.inline (.named 0) l).1 = .ok (1, []) := by
  refine ⟨defaultedEnum, defaultedGrown, [⟨[.ident "c".toList 1], 0, none⟩], rfl,
    ⟨.kept (more := []) (fun _ => rfl) (by simp) (.added ?_), fun k hk => ?_, rfl, rfl, rfl⟩, rfl, rfl⟩
  · intro w hw
    simp only [List.mem_cons, List.not_mem_nil, or_false] at hw
    subst hw
    exact ⟨rfl, by simp [boolVariant]⟩
  · subst hk
    decide

end
end Deluxe
