import Verif.Props.AliasesEnum
import Verif.Lemmas.Moved
/-!
# C122, continued: enums with flattened variants

If the items that are written under another name are there, a variant is selected by its name, and the keys beside it are
the same.
-/
namespace Deluxe

variable {V : Type} [Env]

/-! ## Inputs that differ -/

/-- Inputs that differ have an item with a key that is written in another way, unless reading stops before. -/
theorem Respelt.same_or {R : Str → Str → Prop} {β : Type} {p : M Stream β} {S : β → Prop} (hl : Local p)
    (hS : ∀ {segs segs' sp v vt rest} (sc : Span) (u : Option Span) b s1, KeyToks segs sp v vt →
      R (keyString segs) (keyString segs') → Boundary rest → p ⟨v ++ rest, sc, u⟩ = (.ok b, s1) → S b)
    {ts ts' : List Tok} (h : Respelt R ts ts') : ∀ {sc : Span} {u : Option Span} {rs fatal s1},
      Reads p ⟨ts, sc, u⟩ rs fatal s1 → ts = ts' ∨ (∃ x ∈ rs, S x.1) ∨ fatal ≠ none := by
  induction h with
  | same ts => exact fun _ => .inl rfl
  | @keep v c r r' hn hc _ ih =>
    intro sc u rs fatal s1 h
    obtain ⟨res, v1, u1, hsuf, hq⟩ := hl v c sc u hn hc
    cases h with
    | done h => simp at h
    | failItem => exact .inr (.inr (by simp))
    | failSep => exact .inr (.inr (by simp))
    | last h1 h2 h3 =>
      rw [hq] at h2
      cases h2
      simp at h3
    | @more _ b s2 c' rest rs fatal _ h1 h2 h3 h4 h5 =>
      rw [hq] at h2
      cases h2
      cases v1 with
      | cons x v1 =>
        simp only [List.cons_append, List.cons.injEq] at h3
        exact absurd (h3.1 ▸ h4) ((hn.suffix hsuf) x List.mem_cons_self)
      | nil =>
        simp only [List.nil_append, List.cons.injEq] at h3
        obtain ⟨rfl, rfl⟩ := h3
        rcases ih h5 with h | ⟨x, hx, hs⟩ | h
        · exact .inl (by rw [h])
        · exact .inr (.inl ⟨x, .tail _ hx, hs⟩)
        · exact .inr (.inr h)
  | @last segs segs' sp v v' vt h1 h2 h3 h4 =>
    intro sc u rs fatal s1 h
    have hS' := fun b s1 hb => hS (rest := []) sc u b s1 h1 h3 (.inl rfl) (by rw [List.append_nil]; exact hb)
    cases h with
    | done h => exact absurd h h1.nonempty
    | failItem => exact .inr (.inr (by simp))
    | failSep => exact .inr (.inr (by simp))
    | last _ h2 _ => exact .inr (.inl ⟨_, .head _, hS' _ _ h2⟩)
    | more _ h2 _ _ _ => exact .inr (.inl ⟨_, .head _, hS' _ _ h2⟩)
  | @more segs segs' sp v v' vt c r r' h1 h2 h3 h4 hc _ ih =>
    intro sc u rs fatal s1 h
    have hS' := fun b s1 hb => hS (rest := c :: r) sc u b s1 h1 h3 (.inr ⟨c, r, rfl, hc⟩) hb
    cases h with
    | done h => simp at h
    | failItem => exact .inr (.inr (by simp))
    | failSep => exact .inr (.inr (by simp))
    | last _ h2 _ => exact .inr (.inl ⟨_, .head _, hS' _ _ h2⟩)
    | more _ h2 _ _ _ => exact .inr (.inl ⟨_, .head _, hS' _ _ h2⟩)

theorem RespeltAll.same_or {R : Str → Str → Prop} {β : Type} {p : M Stream β} {S : β → Prop} (hl : Local p)
    (hS : ∀ {segs segs' sp v vt rest} (sc : Span) (u : Option Span) b s1, KeyToks segs sp v vt →
      R (keyString segs) (keyString segs') → Boundary rest → p ⟨v ++ rest, sc, u⟩ = (.ok b, s1) → S b)
    {l l' : List Stream} (h : RespeltAll R l l') : ∀ {rs fatal l1}, ReadsAll p (forkInputs l) rs fatal l1 →
      l = l' ∨ (∃ x ∈ rs, S x.1) ∨ fatal ≠ none := by
  induction h with
  | nil => exact fun _ => .inl rfl
  | @cons ts ts' sc u l l' h _ ih =>
    intro rs fatal l1 hr
    cases hr with
    | fail => exact .inr (.inr (by simp))
    | cons h1 h2 =>
      rcases h.same_or hl hS h1 with h1 | ⟨x, hx, hs⟩ | h1
      · rcases ih h2 with h2 | ⟨x, hx, hs⟩ | h2
        · exact .inl (by rw [h1, h2])
        · exact .inr (.inl ⟨x, List.mem_append_right _ hx, hs⟩)
        · exact .inr (.inr h2)
      · exact .inr (.inl ⟨x, List.mem_append_left _ hx, hs⟩)
      · exact absurd rfl h1

/-! ## Items -/

/-- What an enum does with an item, apart from the names of variants. -/
def EItem.viewKeys : EItem V → (Nat × Span × Except SynErr (List V)) ⊕ (Str × Span)
  | .variant i _ sp x => .inl (i, sp, x)
  | .other k sp => .inr (k, sp)

omit [Env] in
theorem viewKeys_view {bs bs' : List (EItem V)} (h : bs.map EItem.viewKeys = bs'.map EItem.viewKeys) :
    bs.map EItem.view = bs'.map EItem.view := by
  have : (EItem.view : EItem V → _) = (fun x => match x with | .inl y => some y | .inr _ => none) ∘ EItem.viewKeys := by
    funext b
    cases b <;> rfl
  rw [this, ← List.map_map, ← List.map_map, h]

/-- The value of an item with a name of a variant as key. -/
theorem enumValue_named {e : EnumDef V} (site : Site V) (ha : VariantsApart e.variants) (pre : Str) {v : Variant V}
    {i : Nat} (hi : e.variants[i]? = some v) (hvb : v.ByName) {n : Str} (hm : n ∈ v.idents) (sp : Span) :
    enumValue e site pre (pre ++ n) sp = M.map (EItem.variant i n sp) (recover (v.item site pre (pre ++ n) sp)) := by
  unfold enumValue
  rw [(selected_some _ _ _ _ _ _).2 ((selects_apart ha pre n n v i).2 ⟨rfl, hi, hvb, hm⟩)]

theorem enumItem_unseeingKeys {e : EnumDef V} {site : Site V} (hb : ByNameGood e site)
    (hl : ∀ v ∈ e.variants, v.isTransparent = true → ∀ f ∈ v.fields, f.item.Local) (hn : ∀ v ∈ e.variants, v.NameBlind)
    (ha : VariantsApart e.variants) (pre : Str) :
    Unseeing (SameVariantName e.variants pre) EItem.viewKeys (enumItem e site pre) := by
  refine { (keyed_unseeing (R := SameVariantName e.variants pre) (view := EItem.viewKeys) (q := enumValue e site pre)
    (fun k sp => ?_) (fun k sp => ?_) (fun k k' sp hR s => ?_)) with }
  · unfold enumValue
    split
    · rename_i k' v i heq
      have ho := ((selected_some _ _ _ _ _ _).1 heq).mem
      exact Good.map _ (recover_good (hb v ho.1 ho.2.1 _ _ _))
    · exact fun s => ⟨by simp, skipMetaItem_adv s⟩
  · unfold enumValue
    split
    · rename_i k' v i heq
      have ho := ((selected_some _ _ _ _ _ _).1 heq).mem
      exact (recover_local (variantItem_local (hl v ho.1) _ _ _ _)).map _
    · exact skip_local _
  · obtain ⟨v, hv, hvb, n, h1, n', h2, rfl, rfl⟩ := hR
    obtain ⟨i, hi⟩ := List.getElem?_of_mem hv
    rw [enumValue_named site ha pre hi hvb h1, enumValue_named site ha pre hi hvb h2,
      variantItem_blind (hn v hv) site pre (pre ++ n) (pre ++ n')]
    simp only [M.map]
    generalize recover (v.item site pre (pre ++ n') sp) s = x
    obtain ⟨r, s'⟩ := x
    cases r <;> exact ⟨trivial, rfl⟩

/-- A name of a variant is a name of a variant, and other keys are not. -/
def EItem.Sorted (vs : List (Variant V)) (pre : Str) : EItem V → Prop
  | .variant i k _ _ => ∃ v, Selects vs pre (pre ++ k) k v i
  | .other key _ => ∀ k v i, ¬ Selects vs pre key k v i

theorem enumItem_sorted {e : EnumDef V} {site : Site V} {pre : Str} {s s' : Stream} {b : EItem V}
    (h : enumItem e site pre s = (.ok b, s')) : b.Sorted e.variants pre := by
  unfold enumItem keyed at h
  split at h
  · rename_i p s1 _
    unfold enumValue at h
    cases heq : selected e.variants pre (keyString p.segs) with
    | some y =>
      obtain ⟨k, v, i⟩ := y
      have ho := (selected_some _ _ _ _ _ _).1 heq
      simp only [heq, M.map] at h
      generalize recover (v.item site pre (keyString p.segs) p.span) s1 = x at h
      obtain ⟨r, s2⟩ := x
      cases r with
      | ok y =>
        cases h
        exact ⟨v, ho.1 ▸ ho⟩
      | err y => cases h
      | panic => cases h
    | none =>
      simp only [heq] at h
      cases h
      exact (selected_none _ _ _).1 heq
  · cases h
  · cases h

omit [Env] in
theorem mem_seenKeys (pre : Str) (bs : List (EItem V)) (n : Str) : (∃ sp, (n, sp) ∈ seenKeys pre bs) ↔
    (∃ i sp x, .variant i n sp x ∈ bs) ∨ ∃ sp, .other (pre ++ n) sp ∈ bs := by
  induction bs with
  | nil => simp [seenKeys]
  | cons b bs ih =>
    cases b with
    | variant i k sp x =>
      simp only [seenKeys, List.mem_cons, Prod.mk.injEq, EItem.variant.injEq, reduceCtorEq, false_or]
      constructor
      · rintro ⟨sp', ⟨rfl, rfl⟩ | h⟩
        · exact .inl ⟨_, _, _, .inl ⟨rfl, rfl, rfl, rfl⟩⟩
        · rcases ih.1 ⟨_, h⟩ with ⟨i, sp, x, h⟩ | h
          · exact .inl ⟨i, sp, x, .inr h⟩
          · exact .inr h
      · rintro (⟨i', sp', x', ⟨rfl, rfl, rfl, rfl⟩ | h⟩ | h)
        · exact ⟨_, .inl ⟨rfl, rfl⟩⟩
        · obtain ⟨sp, h⟩ := ih.2 (.inl ⟨_, _, _, h⟩)
          exact ⟨sp, .inr h⟩
        · obtain ⟨sp, h⟩ := ih.2 (.inr h)
          exact ⟨sp, .inr h⟩
    | other key sp =>
      simp only [seenKeys, List.mem_append, List.mem_cons, EItem.other.injEq, reduceCtorEq, false_or]
      constructor
      · rintro ⟨sp', h | h⟩
        · split at h
          · rename_i hp
            obtain ⟨t, rfl⟩ := hp
            simp only [List.drop_left, List.mem_singleton, Prod.mk.injEq] at h
            exact .inr ⟨sp', .inl ⟨by rw [h.1], h.2⟩⟩
          · cases h
        · rcases ih.1 ⟨_, h⟩ with h | ⟨sp, h⟩
          · exact .inl h
          · exact .inr ⟨sp, .inr h⟩
      · rintro (h | ⟨sp', ⟨h1, rfl⟩ | h⟩)
        · obtain ⟨sp, h⟩ := ih.2 (.inl h)
          exact ⟨sp, .inr h⟩
        · refine ⟨sp', .inl ?_⟩
          rw [← h1, if_pos (List.prefix_append _ _), List.drop_left]
          exact .head _
        · obtain ⟨sp, h⟩ := ih.2 (.inr ⟨_, h⟩)
          exact ⟨sp, .inr h⟩

omit [Env] in
/-- The keys beside that of the variant are those that are no names of variants. -/
theorem beside_iff {e : EnumDef V} (hf : e.anyFlat = true) {pre : Str} {bs : List (EItem V)}
    (hs : ∀ b ∈ bs, b.Sorted e.variants pre) (hm : variantMsgs pre none bs = []) {key : Str}
    (hk : (afterItems e pre bs).val.key = some key) (n : Str) :
    (((afterItems e pre bs).val.paths.remove key).get n).isSome = true ↔ ∃ sp, .other (pre ++ n) sp ∈ bs := by
  have hget : ((afterItems e pre bs).val.paths.get n).isSome = true ↔
      (∃ i sp x, .variant i n sp x ∈ bs) ∨ ∃ sp, .other (pre ++ n) sp ∈ bs := by
    rw [afterItems, seenKeys_get e hf, ← mem_seenKeys]
    have := lastSpan_isSome (seenKeys pre bs) n
    simp only [List.mem_map, Prod.exists, exists_and_right, exists_eq_right] at this
    rw [← this]
    cases lastSpan (seenKeys pre bs) n <;> simp [PathMap.get]
  have hkey : ∀ i k sp x, .variant i k sp x ∈ bs → k = key := by
    intro i k sp x h
    rw [afterItems, enumAdd_key] at hk
    have h1 := (named_mem (bs := bs) (y := (i, k, sp, x))).2 h
    rcases variantMsgs_eq_nil hm with h2 | ⟨i', k', sp', x', h2⟩
    · rw [h2] at h1; cases h1
    · rw [h2] at h1 hk
      simp only [List.mem_singleton, Prod.mk.injEq] at h1
      simp only [List.head?_cons, Option.map_some] at hk
      rw [h1.2.1]
      exact Option.some.inj hk
  rw [PathMap.get_remove]
  by_cases hn : n = key
  · subst hn
    simp only [if_true, Option.isSome_none, Bool.false_eq_true, false_iff]
    rintro ⟨sp, h⟩
    rw [afterItems, enumAdd_key] at hk
    have hk : (named bs).head?.map (·.2.1) = some n := hk
    obtain ⟨y, h1, h2⟩ := Option.map_eq_some_iff.1 hk
    have h3 := (named_mem (bs := bs) (y := y)).1 (List.mem_of_mem_head? h1)
    obtain ⟨v, hv⟩ := hs _ h3
    rw [h2] at hv
    exact hs _ h _ _ _ hv
  · rw [if_neg hn, hget]
    constructor
    · rintro (⟨i, sp, x, h⟩ | h)
      · exact absurd (hkey _ _ _ _ h) hn
      · exact h
    · exact .inr

omit [Env] in
theorem disallow_none_iff (paths : PathMap) (keys : List (Str × List Str)) (cur : Str) :
    (disallowPaths paths keys cur Errors.new).toList = [] ↔
      ∀ pk ∈ keys, ∀ n ∈ pk.2, ¬ (paths.get (joinPath pk.1 n)).isSome = true := by
  rw [disallowPaths_toList]
  simp only [Errors.new, Errors.toList, List.nil_append, List.flatMap_eq_nil_iff, disallowMsgs]
  refine forall_congr' fun pk => forall_congr' fun _ => forall_congr' fun n => forall_congr' fun _ => ?_
  cases paths.get (joinPath pk.1 n) <;> simp

/-- **C122.**  The value of an enum, with flattened variants or without, is the same under whichever of its names a variant is
written. -/
theorem c122_enum_flat {e : EnumDef V} {site : Site V} (ha : e.Accepted site) (hg : e.FieldsFine) (hinf : e.Infallible)
    (hl : ∀ v ∈ e.variants, v.isTransparent = true → ∀ f ∈ v.fields, f.item.Local)
    (hn : ∀ v ∈ e.variants, v.NameBlind) (hap : VariantsApart e.variants) (k : Span) (pre : Str) (validate : Bool)
    (hpre : validate = true → pre = []) {l l' : List Stream} (hr : RespeltAll (SameVariantName e.variants pre) l l')
    (y : EnumVal V) :
    (enumFlat e site (.named k) pre validate l).1 = .ok y ↔ (enumFlat e site (.named k) pre validate l').1 = .ok y := by
  cases hf : e.anyFlat with
  | false => exact c122_enum ha hg hinf hf hl hn hap k pre validate hpre hr y
  | true =>
  have hb := EnumDef.byNameGood ha hg hinf
  have hun := enumItem_unseeingKeys hb hl hn hap pre (site := site)
  obtain ⟨rs, rs', fatal, l1, l1', h1, h2, h3⟩ := hr.fork.reads hun
  have hsame := hr.same_or (S := fun b : EItem V => ∃ i k sp x, b = .variant i k sp x) hun.local_ (by
    rintro segs segs' sp v vt rest sc u b s1 hk ⟨w, hw, hwb, n, hn1, n', hn2, e1, e2⟩ hbd hp
    obtain ⟨i, hi⟩ := List.getElem?_of_mem hw
    rw [enumItem, keyed_key _ hk hbd, e1, enumValue_named site hap pre hi hwb hn1] at hp
    simp only [M.map] at hp
    generalize recover (w.item site pre (pre ++ n) sp) ⟨vt ++ rest, sc, u⟩ = x at hp
    obtain ⟨r, s2⟩ := x
    cases r with
    | ok z => cases hp; exact ⟨_, _, _, _, rfl⟩
    | err z => cases hp
    | panic => cases hp) h1
  rcases hsame with rfl | hsame
  · exact Iff.rfl
  have hfork : ∀ l, (if e.anyFlat || !e.unknownOk then forkInputs l else l) = forkInputs l := fun l => by simp [hf]
  obtain ⟨errs, q1, q2⟩ := enumFlat_eq hb (.named k) pre validate (l := l) (by rw [hfork]; exact h1)
  obtain ⟨errs', q1', q2'⟩ := enumFlat_eq hb (.named k) pre validate (l := l') (by rw [hfork]; exact h2)
  have h3k : (rs.map (·.1)).map EItem.viewKeys = (rs'.map (·.1)).map EItem.viewKeys := by simpa [Function.comp_def] using h3
  have h3' := viewKeys_view h3k
  obtain ⟨hval, -⟩ := view_value e pre h3' ⟨⟨none, .none, []⟩, Errors.new⟩ ⟨⟨none, .none, []⟩, Errors.new⟩ rfl rfl
  change (afterItems e pre (rs.map (·.1))).val.value = (afterItems e pre (rs'.map (·.1))).val.value at hval
  have hvm := view_noMsgs pre h3' none none rfl
  have hmsg : errs.toList = [] ↔ errs'.toList = [] := by
    rw [q1, q1', List.append_eq_nil_iff, List.append_eq_nil_iff, hvm]
  have hk : ∀ l, (Mode.named k).toFullSpan l = k := fun _ => rfl
  have hends : ∀ {st : EnumSt V} {errs : Errors} {l l2 : List Stream}, enumFlat e site (.named k) pre validate l =
      (match pick e site pre k validate st errs l2 with
        | (.ok (value, errs), l2) => (conclude e value errs, skipAll l2)
        | (.err x, l2) => (.err x, l2)
        | (.panic, l2) => (.panic, l2)) →
      (enumFlat e site (.named k) pre validate l).1 = enumEnds e site pre k validate st errs l2 := by
    intro st errs l l2 h
    rw [h]
    unfold enumEnds
    generalize pick e site pre k validate st errs l2 = z
    obtain ⟨r, l2⟩ := z
    cases r <;> rfl
  have hal : ∀ l l1, afterLoop e l l1 = l := fun l l1 => by simp [afterLoop, hf]
  rw [hk, hal] at q2 q2'
  rw [hends q2, hends q2']
  by_cases he : errs.toList = []
  case neg =>
    constructor
    · exact fun h => absurd (enumEnds_ok h) he
    · exact fun h => absurd (hmsg.2 (enumEnds_ok h)) he
  have he' := hmsg.1 he
  rw [q1, List.append_eq_nil_iff] at he
  rw [q1', List.append_eq_nil_iff] at he'
  have e1 : errs = Errors.new := Errors.eq_of_toList (by rw [q1, he.1, he.2]; rfl)
  have e2 : errs' = Errors.new := Errors.eq_of_toList (by rw [q1', he'.1, he'.2]; rfl)
  subst e1; subst e2
  have hno : (afterItems e pre (rs.map (·.1))).val.value.isNone = false := by
    rcases hsame with ⟨x, hx, i, n, sp, z, hxe⟩ | hfat
    · refine enumAdd_value_some e pre _ _ (.inl fun hnil => ?_)
      have : (i, n, sp, z) ∈ named (rs.map (·.1)) := named_mem.2 (by
        show EItem.variant i n sp z ∈ rs.map (·.1)
        rw [← hxe]
        exact List.mem_map_of_mem hx)
      rw [hnil] at this
      cases this
    · cases fatal with
      | none => exact absurd rfl hfat
      | some x => simp [stopMsgs, SynErr.toList] at he
  have hsort : ∀ {rs : List (EItem V × Stream × Stream)} {l fatal l1}, ReadsAll (enumItem e site pre) l rs fatal l1 →
      ∀ b ∈ rs.map (·.1), b.Sorted e.variants pre := by
    intro rs l fatal l1 h b hb
    obtain ⟨x, hx, rfl⟩ := List.mem_map.1 hb
    exact enumItem_sorted (h.mem x hx)
  have hother : ∀ n, (∃ sp, EItem.other (pre ++ n) sp ∈ rs.map (·.1)) ↔ ∃ sp, EItem.other (pre ++ n) sp ∈ rs'.map (·.1) := by
    have one : ∀ {bs bs' : List (EItem V)}, bs.map EItem.viewKeys = bs'.map EItem.viewKeys → ∀ key sp,
        EItem.other key sp ∈ bs → EItem.other key sp ∈ bs' := by
      intro bs bs' h key sp hm
      have : EItem.viewKeys (.other key sp) ∈ bs'.map EItem.viewKeys := h ▸ List.mem_map_of_mem hm
      obtain ⟨b, hb, hv⟩ := List.mem_map.1 this
      cases b with
      | variant i n sp x => cases hv
      | other key' sp' =>
        simp only [EItem.viewKeys, Sum.inr.injEq, Prod.mk.injEq] at hv
        rw [← hv.1, ← hv.2]
        exact hb
    exact fun n => ⟨fun ⟨sp, h⟩ => ⟨sp, one h3k _ _ h⟩, fun ⟨sp, h⟩ => ⟨sp, one h3k.symm _ _ h⟩⟩
  have hbes := fun key hk n => beside_iff hf (hsort h1) he.1 (key := key) hk n
  have hbes' := fun key hk n => beside_iff hf (hsort h2) he'.1 (key := key) hk n
  have hno' : (afterItems e pre (rs'.map (·.1))).val.value.isNone = false := hval ▸ hno
  have hkey := afterItems_some hno
  have hkey' := afterItems_some hno'
  generalize (afterItems e pre (rs.map (·.1))).val = st at hval hno hkey hbes ⊢
  generalize (afterItems e pre (rs'.map (·.1))).val = st' at hval hkey' hbes' ⊢
  obtain ⟨key, value, paths⟩ := st
  obtain ⟨key', value', paths'⟩ := st'
  simp only at hval hno hkey hkey' hbes hbes'
  subst hval
  unfold enumEnds
  cases value with
  | none => cases hno
  | parseError => exact Iff.rfl
  | some x =>
    cases key with
    | none => cases hkey
    | some a =>
      cases key' with
      | none => cases hkey'
      | some b =>
        simp only [pick, hf, Bool.true_and]
        have hsameE : ∀ {r r' : Errors}, (r.toList = [] ↔ r'.toList = []) →
            (conclude e (.some x) r = .ok y ↔ conclude e (.some x) r' = .ok y) := by
          intro r r' hrr
          have new : ∀ {r : Errors}, conclude e (.some x) r = .ok y → r.toList = [] := by
            intro r h
            apply Classical.byContradiction
            intro hne
            obtain ⟨z, h1, _⟩ := conclude_msgs e (value := .some x) (errs := r) hne (.refl _)
            rw [h1] at h
            cases h
          constructor
          · intro h
            have n1 := new h
            have n2 := hrr.1 n1
            have : r = r' := Errors.eq_of_toList (n1.trans n2.symm)
            rwa [← this]
          · intro h
            have n2 := new h
            have n1 := hrr.2 n2
            have : r = r' := Errors.eq_of_toList (n1.trans n2.symm)
            rwa [this]
        by_cases hc : (!e.unknownOk && !validate) = true
        · have hv : (!e.unknownOk && validate) = false := by
            cases e.unknownOk <;> cases validate <;> simp_all
          simp only [hc, if_true, validatePass, hv, Bool.false_eq_true, if_false]
          refine hsameE ?_
          rw [disallow_none_iff, disallow_none_iff]
          refine forall_congr' fun pk => forall_congr' fun _ => forall_congr' fun n => forall_congr' fun _ => ?_
          rw [hbes a rfl, hbes' b rfl, hother]
        · rw [if_neg hc, if_neg hc]
          have hvp : (validatePass e validate Errors.new l).1 = (validatePass e validate Errors.new l').1 := by
            unfold validatePass
            by_cases hc : (!e.unknownOk && validate) = true
            · rw [if_pos hc, if_pos hc]
              simp only [Bool.and_eq_true, Bool.not_eq_true'] at hc
              refine checkKeys_blind ?_ Errors.new hr
              rintro key key' ⟨v, hv, hvb, n, h1, n', h2, e1, e2⟩
              rw [e1, e2, hpre hc.2]
              have hmem : ∀ n ∈ v.idents, [] ++ n ∈ e.fieldNames := by
                intro n hn
                refine List.mem_flatMap.2 ⟨v, hv, ?_⟩
                simp only [Variant.names, hvb.1, hvb.2, Bool.false_eq_true, if_false]
                exact hn
              exact ⟨hmem n h1, hmem n' h2⟩
            · rw [if_neg hc, if_neg hc]
          generalize validatePass e validate Errors.new l = z at hvp ⊢
          generalize validatePass e validate Errors.new l' = z' at hvp ⊢
          obtain ⟨r, m⟩ := z
          obtain ⟨r', m'⟩ := z'
          simp only at hvp
          subst hvp
          cases r <;> exact Iff.rfl

/-! ## Examples -/

/-- `enum E { #[deluxe(alias = aa)] A { x: bool }, #[deluxe(flatten)] B { y: bool } }` -/
def twoNamesFlat : EnumDef Bool where
  variants := [boolVariant "A" ["a", "aa"] false [("x", none)], boolVariant "B" ["b"] true [("y", none)]]
  default := none
  allowUnknown := none
  andThens := []

/-- C122: the conditions are met by an enum with a flattened variant. -/
example : twoNamesFlat.Accepted .meta ∧ twoNamesFlat.FieldsFine ∧ twoNamesFlat.Infallible ∧ twoNamesFlat.anyFlat = true ∧
    (∀ v ∈ twoNamesFlat.variants, v.isTransparent = true → ∀ f ∈ v.fields, f.item.Local) ∧
    (∀ v ∈ twoNamesFlat.variants, v.NameBlind) ∧ VariantsApart twoNamesFlat.variants ∧
    Respelt (SameVariantName twoNamesFlat.variants []) [.ident ['a'] 1, .group .brace [.ident ['x'] 2] 3 4]
      [.ident ['a', 'a'] 1, .group .brace [.ident ['x'] 2] 3 4] := by
  have hv : ∀ v ∈ twoNamesFlat.variants, ∃ a b c d, v = boolVariant a b c d := by
    intro v hv
    simp only [twoNamesFlat, List.mem_cons, List.not_mem_nil, or_false] at hv
    rcases hv with rfl | rfl <;> exact ⟨_, _, _, _, rfl⟩
  obtain ⟨h1, h2, h3⟩ := boolEnum_fine (e := twoNamesFlat) hv
  have ht : ∀ v ∈ twoNamesFlat.variants, v.isTransparent = false := by
    intro v h
    obtain ⟨a, b, c, d, rfl⟩ := hv v h
    rfl
  have key : ∀ (s : Str) (sp : Span), KeyToks [s] sp (.ident s sp :: [.group .brace [.ident ['x'] 2] 3 4])
      [.group .brace [.ident ['x'] 2] 3 4] := fun s sp => .mk (pt := [.ident s sp]) (.plain (.one _ _)) (by simp [StartsColon2])
  refine ⟨h1, h2, h3, rfl, fun v hv h => ?_, fun v hv h => ?_, ?_, .last (key _ _) (key _ _) ?_ (by simp [NoComma, Comma])⟩
  · rw [ht v hv] at h; cases h
  · rw [ht v hv] at h; cases h
  · intro i j v w n hi hj hvb hwb h1 h2
    match i, j, hi, hj with
    | 0, 0, _, _ => rfl
    | 1, 1, _, _ => rfl
    | 0, 1, hi, hj =>
      cases hi; cases hj
      exact absurd hwb.1 (by decide)
    | 1, 0, hi, hj =>
      cases hi; cases hj
      exact absurd hvb.1 (by decide)
    | _ + 2, _, hi, _ => cases hi
    | _, _ + 2, _, hj => cases hj
  · exact ⟨_, List.mem_cons_self, ⟨rfl, rfl⟩, ['a'], by simp [boolVariant], ['a', 'a'], by simp [boolVariant], rfl, rfl⟩

/-- C122: inside another structure (keys are not checked then) `a(x)` and `aa(x)` give the same; beside `y`, the key of the
flattened variant, both are rejected. -/
example : letI : Env := ⟨fun a _ => some a, fun _ _ => 0, 1⟩
    ((enumFlat twoNamesFlat .meta (.named 0) [] false [⟨[.ident ['a'] 1, .group .paren [.ident ['x'] 2] 3 4], 0, none⟩]).1
      matches .ok (0, [true])) ∧
    ((enumFlat twoNamesFlat .meta (.named 0) [] false [⟨[.ident ['a', 'a'] 1, .group .paren [.ident ['x'] 2] 3 4], 0, none⟩]).1
      matches .ok (0, [true])) ∧
    ((enumFlat twoNamesFlat .meta (.named 0) [] false [⟨[.ident ['a'] 1, .group .paren [.ident ['x'] 2] 3 4,
      .punct ',' false 5, .ident ['y'] 6], 0, none⟩]).1 matches .err ⟨⟨_, .notAllowedWith ['y'] ['a']⟩, _⟩) ∧
    ((enumFlat twoNamesFlat .meta (.named 0) [] false [⟨[.ident ['a', 'a'] 1, .group .paren [.ident ['x'] 2] 3 4,
      .punct ',' false 5, .ident ['y'] 6], 0, none⟩]).1 matches .err ⟨⟨_, .notAllowedWith ['y'] ['a', 'a']⟩, _⟩) := by
  decide +kernel

end Deluxe
