import Verif.Props.TrailingFlat
import Verif.Props.Enums
/-!
# C118, continued: a comma after the last item of an enum, and all flattened fields at once
-/
namespace Deluxe

variable {V : Type}

section
variable [Env]

/-! ## The items -/

/-- The item reader of an enum that stops at the first value that cannot be read. -/
def strictVariant (e : EnumDef V) (site : Site V) (pre : Str) : M Stream (EItem V) :=
  keyed fun key sp =>
    match selected e.variants pre key with
    | some (k, (v, i)) => (v.item site pre key sp).map fun x => .variant i k sp (.ok x)
    | none => skipItem (.other key sp)

theorem strictVariant_ends {e : EnumDef V} (hi : ∀ v ∈ e.variants, ∀ f ∈ v.fields, f.item.EndsAlike) (site : Site V)
    (pre : Str) : EndsAlike (strictVariant e site pre) :=
  keyed_ends fun key sp => by
    cases h : selected e.variants pre key with
    | none => exact skipItem_ends _
    | some x =>
      obtain ⟨k, v, i⟩ := x
      exact (ends_variant v (hi v ((selected_some _ _ _ _ _ _).1 h).mem.1) site pre key sp).mapped _

/-- A value that was read. -/
def EItem.Fine (b : EItem V) : Prop := ∀ i k sp x, b = .variant i k sp x → ∃ v, x = .ok v

theorem strict_enum (e : EnumDef V) (site : Site V) (pre : Str) (s : Stream) (b : EItem V) (s1 : Stream)
    (h : strictVariant e site pre s = (.ok b, s1)) :
    ∃ b', enumItem e site pre s = (.ok b', s1) ∧ id b' = b ∧ EItem.Fine b' := by
  simp only [strictVariant, enumItem, keyed] at h ⊢
  cases hp : parseAnyPath s with
  | mk r s2 =>
    rw [hp] at h
    cases r with
    | err e => simp at h
    | panic => simp at h
    | ok path =>
      simp only [enumValue] at h ⊢
      cases ho : selected e.variants pre (keyString path.segs) with
      | none =>
        rw [ho] at h
        simp only [skipItem, Prod.mk.injEq, Res.ok.injEq] at h
        obtain ⟨rfl, rfl⟩ := h
        exact ⟨_, rfl, rfl, fun _ _ _ _ h => by cases h⟩
      | some x =>
        rw [ho] at h
        obtain ⟨k, v, i⟩ := x
        simp only at h ⊢
        generalize v.item site pre (keyString path.segs) path.span = q at h ⊢
        simp only [M.map, Deluxe.recover] at h ⊢
        cases hq : q s2 with
        | mk r2 s3 =>
          rw [hq] at h
          cases r2 with
          | ok a =>
            simp only [Res.map, Prod.mk.injEq, Res.ok.injEq] at h ⊢
            obtain ⟨rfl, rfl⟩ := h
            exact ⟨_, ⟨rfl, rfl⟩, rfl, fun _ _ _ _ h => by cases h; exact ⟨_, rfl⟩⟩
          | err e => simp [Res.map] at h
          | panic => simp [Res.map] at h

theorem enum_strict (e : EnumDef V) (site : Site V) (pre : Str) (s : Stream) (b : EItem V) (s1 : Stream)
    (hb : EItem.Fine b) (h : enumItem e site pre s = (.ok b, s1)) : strictVariant e site pre s = (.ok (id b), s1) := by
  simp only [strictVariant, enumItem, keyed] at h ⊢
  cases hp : parseAnyPath s with
  | mk r s2 =>
    rw [hp] at h
    cases r with
    | err e => simp at h
    | panic => simp at h
    | ok path =>
      simp only [enumValue] at h ⊢
      cases ho : selected e.variants pre (keyString path.segs) with
      | none =>
        rw [ho] at h
        exact h
      | some x =>
        rw [ho] at h
        obtain ⟨k, v, i⟩ := x
        simp only at h ⊢
        generalize v.item site pre (keyString path.segs) path.span = q at h ⊢
        simp only [M.map, Deluxe.recover] at h ⊢
        cases hq : q s2 with
        | mk r2 s3 =>
          rw [hq] at h
          cases r2 with
          | ok a => simpa [Res.map] using h
          | err e =>
            simp only [Res.map, Prod.mk.injEq, Res.ok.injEq] at h
            obtain ⟨rfl, rfl⟩ := h
            obtain ⟨v, hv⟩ := hb _ _ _ _ rfl
            cases hv
          | panic => simp [Res.map] at h

omit [Env] in
theorem variantMsgs_fine (pre : Str) (bs : List (EItem V)) :
    ∀ first, variantMsgs pre first bs = [] → ∀ b ∈ bs, EItem.Fine b := by
  induction bs with
  | nil => simp
  | cons b bs ih =>
    intro first h b' hb'
    cases b with
    | other key sp =>
      rcases List.mem_cons.1 hb' with rfl | hb'
      · intro _ _ _ _ h; cases h
      · exact ih _ h b' hb'
    | variant i k sp x =>
      simp only [variantMsgs, List.append_eq_nil_iff] at h
      rcases List.mem_cons.1 hb' with rfl | hb'
      · intro _ _ _ y hy
        cases hy
        cases x with
        | ok v => exact ⟨v, rfl⟩
        | error e => simp [SynErr.toList] at h
      · exact ih _ h.2 b' hb'

/-! ## Messages are never lost -/

theorem flatBlock_keeps {e : EnumDef V} {site : Site V} (pre : Str) (span : Span) (paths : PathMap) (v : Variant V)
    (i : Nat) (empty : Bool) (errs : Errors) (l : List Stream) (hne : errs.toList ≠ []) {value errs'}
    (h : (flatBlock e site pre span paths v i empty errs l).1 = .ok (value, errs')) : errs'.toList ≠ [] := by
  have hbail : ∀ (x : Errors), x.toList ≠ [] → ∀ {α : Type} (y : α), (x.bail : Res α) ≠ .ok y := by
    intro x hx α y
    rcases x with ⟨_ | z⟩
    · simp [Errors.toList] at hx
    · simp [Errors.bail, Errors.unwrapErr]
  have hempty : errs.isEmpty = false := by
    rcases errs with ⟨_ | z⟩
    · simp [Errors.toList] at hne
    · rfl
  simp only [flatBlock] at h
  split at h
  · rename_i errs1 hc
    have he : errs1 = errs := by
      split at hc
      · simp only [emptyCheck, hempty, Bool.not_false, if_true] at hc
        exact absurd hc (hbail errs hne _)
      · cases hc; rfl
    subst he
    have hd : ∀ x : Errors, x.toList ≠ [] → (if (e.unknownOk || v.allowUnknown.getD false || !v.acceptsAll) = true then x
        else disallowPaths (removePaths paths v.flatNames) (otherFlatNames e (some i)) v.ident x).toList ≠ [] := by
      intro x hx
      split
      · exact hx
      · obtain ⟨ms, hms⟩ := disallow_msgs (removePaths paths v.flatNames) (otherFlatNames e (some i)) v.ident x
        rw [hms]
        simp [hx]
    split at h
    · simp only [Res.ok.injEq, Prod.mk.injEq] at h
      rw [← h.2]
      exact hd _ hne
    · simp only [Res.ok.injEq, Prod.mk.injEq] at h
      rw [← h.2]
      exact hd _ (by simp [SynErr.toList])
    · simp at h
  · simp at h
  · simp at h

theorem pick_nonempty {e : EnumDef V} {site : Site V} (pre : Str) (span : Span) (validate : Bool) (st : EnumSt V)
    (errs : Errors) (l : List Stream) (hne : errs.toList ≠ []) {value errs'}
    (h : (pick e site pre span validate st errs l).1 = .ok (value, errs')) : errs'.toList ≠ [] := by
  unfold pick at h
  have hvp := fun errs : Errors => validatePass_good e validate errs l
  split at h
  · split at h
    · simp at h
    · rename_i key _
      simp only at h
      have hd : (if (e.anyFlat && !e.unknownOk && !validate) = true then
          disallowPaths (st.paths.remove key) (otherFlatNames e none) key errs else errs).toList ≠ [] := by
        split
        · obtain ⟨ms, hms⟩ := disallow_msgs (st.paths.remove key) (otherFlatNames e none) key errs
          rw [hms]
          simp [hne]
        · exact hne
      obtain ⟨errs1, l1, h1, _, h2⟩ := hvp (if (e.anyFlat && !e.unknownOk && !validate) = true then
          disallowPaths (st.paths.remove key) (otherFlatNames e none) key errs else errs)
      rw [h1] at h
      simp only [Res.ok.injEq, Prod.mk.injEq] at h
      rw [← h.2]
      exact h2 hd
  · simp only [Res.ok.injEq, Prod.mk.injEq] at h
    rw [← h.2]
    exact hne
  · unfold pickFlat at h
    split at h
    · exact flatBlock_keeps _ _ _ _ _ _ _ _ hne h
    · split at h
      · exact flatBlock_keeps _ _ _ _ _ _ _ _ hne h
      · split at h
        · simp only [Res.ok.injEq, Prod.mk.injEq] at h
          rw [← h.2]
          exact hne
        · obtain ⟨errs1, l1, h1, _, h2⟩ := hvp errs
          rw [h1] at h
          simp only [Res.ok.injEq, Prod.mk.injEq] at h
          rw [← h.2]
          simp [variantRequired]

/-- The outcome of an enum after its items. -/
def enumEnds (e : EnumDef V) (site : Site V) (pre : Str) (span : Span) (validate : Bool) (st : EnumSt V) (errs : Errors)
    (l : List Stream) : Res (EnumVal V) :=
  match (pick e site pre span validate st errs l).1 with
  | .ok (value, errs) => conclude e value errs
  | .err x => .err x
  | .panic => .panic

theorem enumEnds_ok {e : EnumDef V} {site : Site V} {pre : Str} {span : Span} {validate : Bool} {st : EnumSt V}
    {errs : Errors} {l : List Stream} {x : EnumVal V} (h : enumEnds e site pre span validate st errs l = .ok x) :
    errs.toList = [] := by
  apply Classical.byContradiction
  intro hne
  unfold enumEnds at h
  split at h
  · rename_i value errs' hp
    obtain ⟨y, h1, _⟩ := conclude_msgs e (value := value) (pick_nonempty pre span validate st errs l hne hp) (.refl _)
    rw [h1] at h
    cases h
  · cases h
  · cases h

/-- Where the items of an enum are read from. -/
def variantsFrom (e : EnumDef V) (s : Stream) : Stream := if e.anyFlat || !e.unknownOk then s.fork else s

/-- An enum is accepted exactly if its items can be read one by one and the rest fits. -/
theorem enum_iff {e : EnumDef V} {site : Site V} (hb : ByNameGood e site) (k : Span) (pre : Str) (validate : Bool)
    (s : Stream) (x : EnumVal V) :
    (enumFlat e site (.named k) pre validate [s]).1 = .ok x ↔
      ∃ rs s1, Reads (strictVariant e site pre) (variantsFrom e s) rs none s1 ∧
        enumEnds e site pre k validate (afterItems e pre (rs.map (·.1))).val (afterItems e pre (rs.map (·.1))).errs
          (afterLoop e [s] [s1]) = .ok x := by
  have hl : (if e.anyFlat || !e.unknownOk then forkInputs [s] else [s]) = [variantsFrom e s] := by
    unfold variantsFrom
    split <;> rfl
  have hmatch : ∀ (p : Picked V × List Stream), (match p with
        | (.ok (value, errs), l2) => (conclude e value errs, skipAll l2)
        | (.err x, l2) => (.err x, l2)
        | (.panic, l2) => (.panic, l2) : Res (EnumVal V) × List Stream).1 =
      match p.1 with
        | .ok (value, errs) => conclude e value errs
        | .err x => .err x
        | .panic => .panic := by
    rintro ⟨_ | _ | _, l2⟩ <;> rfl
  have hrun : ∀ {rs l1}, ReadsAll (enumItem e site pre) [variantsFrom e s] rs none l1 →
      (enumFlat e site (.named k) pre validate [s]).1 =
        enumEnds e site pre k validate (afterItems e pre (rs.map (·.1))).val (afterItems e pre (rs.map (·.1))).errs
          (afterLoop e [s] l1) := by
    intro rs l1 h
    rw [← hl] at h
    simp only [enumFlat]
    rw [enumLoop_reads e site hb pre h]
    exact hmatch _
  constructor
  · intro h
    obtain ⟨rs, fatal, l1, h1⟩ := ReadsAll.exists (enumItem_good hb pre) [variantsFrom e s]
    obtain ⟨errs, h2, h3⟩ := enumFlat_eq hb (.named k) pre validate (hl ▸ h1)
    have h4 : enumEnds e site pre k validate (afterItems e pre (rs.map (·.1))).val errs (afterLoop e [s] l1) = .ok x := by
      rw [h3] at h
      exact (hmatch _).symm.trans h
    rw [enumEnds_ok h4] at h2
    have h5 := List.append_eq_nil_iff.1 h2.symm
    cases fatal with
    | some z => simp [stopMsgs, SynErr.toList] at h5
    | none =>
      have h6 := h1.transfer (item' := strictVariant e site pre) id EItem.Fine
        (fun s b s' => enum_strict e site pre s b s') rfl
        (fun y hy => variantMsgs_fine pre _ none h5.1 y.1 (List.mem_map_of_mem hy))
      obtain ⟨s1, rfl, h7⟩ := reads_of_one h6
      refine ⟨_, s1, h7, ?_⟩
      rw [List.map_map]
      exact (hrun h1).symm.trans h
  · rintro ⟨rs, s1, h1, h2⟩
    obtain ⟨rs', h5, h6, _⟩ := h1.lift (q := enumItem e site pre) id EItem.Fine (strict_enum e site pre)
    have h7 : rs'.map (·.1) = rs.map (·.1) := h6
    rw [hrun (readsAll_one h5), h7]
    exact h2

/-! ## The keys -/

/-- A key and what follows it, whatever the stream has been told about unexpected tokens. -/
theorem parseAnyPath_any (v : List Tok) (sc : Span) :
    (∃ x w, w <:+ v ∧ ∀ u rest, Boundary rest → parseAnyPath ⟨v ++ rest, sc, u⟩ = (.ok x, ⟨w ++ rest, sc, u⟩)) ∨
      ∀ u rest, Boundary rest → ∀ x s', parseAnyPath ⟨v ++ rest, sc, u⟩ ≠ (.ok x, s') := by
  obtain ⟨sps, v1, g1, g2⟩ := leadColon_ends v
  obtain ⟨segs, tr, v2, h1, h2⟩ := pathLoop_ends v1
  cases hsegs : segs.isEmpty with
  | true =>
    refine .inr fun u rest hb x s' h => ?_
    simp only [parseAnyPath, g2 rest hb, h2 rest hb, hsegs, ↓reduceIte] at h
    cases h
  | false =>
    cases tr with
    | true =>
      refine .inr fun u rest hb x s' h => ?_
      simp only [parseAnyPath, g2 rest hb, h2 rest hb, hsegs, ↓reduceIte, Bool.false_eq_true] at h
      cases h
    | false =>
      exact .inl ⟨⟨!sps.isEmpty, segs.map (·.1), joinSpans ((sps ++ segs.map (·.2)).headD callSite)
          (sps ++ segs.map (·.2)).tail⟩, v2, h1.trans g1, fun u rest hb => by
        simp only [parseAnyPath, g2 rest hb, h2 rest hb, hsegs, ↓reduceIte, Bool.false_eq_true]⟩

/-- The key of an item. -/
def EItem.keyOf (pre : Str) : EItem V → Str × Span
  | .variant _ k sp _ => (pre ++ k, sp)
  | .other key sp => (key, sp)

theorem strictVariant_key {e : EnumDef V} {site : Site V} {pre : Str} {v rest : List Tok} (hv : NoComma v)
    (hb : Boundary rest) {sc : Span} {u : Option Span} {b : EItem V} {s1 : Stream}
    (h : strictVariant e site pre ⟨v ++ rest, sc, u⟩ = (.ok b, s1)) (u' : Option Span) :
    keyItem ⟨v ++ rest, sc, u'⟩ = (.ok (b.keyOf pre), ⟨rest, sc, u'⟩) := by
  rcases parseAnyPath_any v sc with ⟨x, w, h1, h2⟩ | h2
  · simp only [strictVariant, keyed, h2 u rest hb] at h
    simp only [keyItem, keyed, h2 u' rest hb, skipMetaItem, skipToks_boundary (hv.suffix h1) hb]
    have : (keyString x.segs, x.span) = b.keyOf pre := by
      cases ho : selected e.variants pre (keyString x.segs) with
      | none =>
        rw [ho] at h
        simp only [skipItem, Prod.mk.injEq, Res.ok.injEq] at h
        rw [← h.1]
        rfl
      | some y =>
        obtain ⟨k, v', i⟩ := y
        rw [ho] at h
        have hs := (selected_some _ _ _ _ _ _).1 ho
        simp only at h
        generalize v'.item site pre (keyString x.segs) x.span = q at h
        simp only [M.map, Prod.mk.injEq] at h
        obtain ⟨h3, _⟩ := h
        cases hq : (q ⟨w ++ rest, sc, u⟩).1 with
        | ok a =>
          rw [hq] at h3
          simp only [Res.map, Res.ok.injEq] at h3
          rw [← h3, hs.1]
          rfl
        | err e => rw [hq] at h3; simp [Res.map] at h3
        | panic => rw [hq] at h3; simp [Res.map] at h3
    rw [this]
  · exfalso
    simp only [strictVariant, keyed] at h
    split at h
    · rename_i hq; exact h2 u rest hb _ _ hq
    · simp at h
    · simp at h

/-- Where the items can be read, the keys can. -/
theorem strict_keys {e : EnumDef V} {site : Site V} {pre : Str} (he : EndsAlike (strictVariant e site pre)) {s rs s1}
    (h : Reads (strictVariant e site pre) s rs none s1) :
    ∀ u, ∃ rs' s1', Reads keyItem ⟨s.toks, s.scope, u⟩ rs' none s1' ∧ rs'.map (·.1) = rs.map fun r => r.1.keyOf pre := by
  generalize hf : (none : Option SynErr) = f at h
  induction h with
  | done h0 => exact fun u => ⟨_, _, .done h0, rfl⟩
  | @last s b s1 h0 h1 h2 =>
    intro u
    obtain ⟨ts, sc, u0⟩ := s
    obtain ⟨v, rest, rfl, hv, hb⟩ := split_at_comma ts
    rcases he v sc u0 hv with ⟨y, w, u', g1, g2⟩ | g2
    · have e := g2 rest hb
      rw [h1] at e
      simp only [Prod.mk.injEq, Res.ok.injEq] at e
      obtain ⟨rfl, rfl⟩ := e
      simp only [List.append_eq_nil_iff] at h2
      obtain ⟨rfl, rfl⟩ := h2
      exact ⟨_, _, .last h0 (strictVariant_key hv hb h1 u) rfl, rfl⟩
    · exact absurd h1 (g2 rest hb _ _)
  | @more s b s1 c r rs f s2 h0 h1 h2 hc h3 ih =>
    intro u
    obtain ⟨ts, sc, u0⟩ := s
    obtain ⟨v, rest, rfl, hv, hb⟩ := split_at_comma ts
    rcases he v sc u0 hv with ⟨y, w, u', g1, g2⟩ | g2
    · have e := g2 rest hb
      rw [h1] at e
      simp only [Prod.mk.injEq, Res.ok.injEq] at e
      obtain ⟨rfl, rfl⟩ := e
      obtain ⟨rfl, rfl⟩ := left_comma (hv.suffix g1) hc h2
      obtain ⟨rs', s1', i1, i2⟩ := ih hf u
      exact ⟨_, _, .more h0 (strictVariant_key hv hb h1 u) rfl hc i1, by simp [i2]⟩
    · exact absurd h1 (g2 rest hb _ _)
  | failItem => cases hf
  | failSep => cases hf

/-- The check of the keys depends on the keys only. -/
theorem checkKeys_tolerant (allowed : List Str) (errs : Errors) {l rs f l1 l' rs' f' l1'} (h : ReadsAll keyItem l rs f l1)
    (h' : ReadsAll keyItem l' rs' f' l1') (hk : rs.map (·.1) = rs'.map (·.1)) :
    (checkKeys allowed errs l).1 = (checkKeys allowed errs l').1 := by
  have key : ∀ {l rs f l1}, ReadsAll keyItem l rs f l1 → (checkKeys allowed errs l).1 =
      .ok ((rs.map (·.1)).foldl (fun (k : Acc Unit) b => ⟨(), (checkUnknownAttribute b.1 b.2 allowed k.errs).1⟩)
        ⟨(), errs⟩).errs := by
    intro l rs f l1 h
    have hp := (fold_iff keyItem_good (fun (k : Acc Unit) b _ _ =>
        ⟨(), (checkUnknownAttribute b.1 b.2 allowed k.errs).1⟩) ⟨(), errs⟩ _ l l1 _).2 ⟨rs, f, h, rfl, rfl⟩
    rw [← checkStep_eq, ← parseStruct_eq, foldReads_map (fun (k : Acc Unit) (b : Str × Span) =>
      (⟨(), (checkUnknownAttribute b.1 b.2 allowed k.errs).1⟩ : Acc Unit))] at hp
    simp only [checkKeys]
    rw [hp]
    cases f <;> simp [stopped]
  rw [key h, key h', hk]

/-! ## The choice -/

/-- Accepted alike. -/
def SameOk {α : Type} (r r' : Res α) : Prop := ∀ x, r = .ok x ↔ r' = .ok x

theorem flatBlock_tolerant {e : EnumDef V} {site : Site V} (pre : Str) (span : Span) (paths : PathMap) (v : Variant V)
    (i : Nat) (empty : Bool) (errs : Errors) {l l' : List Stream}
    (hk : ∀ allowed errs, (checkKeys allowed errs (forkInputs l)).1 = (checkKeys allowed errs (forkInputs l')).1)
    (hv : ∀ validate, SameOk (namedFlat (v.data site span) (Field.fieldNames v.fields) (.named span) pre validate l).1
      (namedFlat (v.data site span) (Field.fieldNames v.fields) (.named span) pre validate l').1) :
    SameOk
      (match (flatBlock e site pre span paths v i empty errs l).1 with
        | .ok (value, errs) => conclude e value errs
        | .err x => .err x
        | .panic => .panic)
      (match (flatBlock e site pre span paths v i empty errs l').1 with
        | .ok (value, errs) => conclude e value errs
        | .err x => .err x
        | .panic => .panic) := by
  have hempty : emptyCheck e v pre span errs l = emptyCheck e v pre span errs l' := by
    simp only [emptyCheck, hk]
  intro x
  simp only [flatBlock, hempty]
  generalize (if (empty && !v.allowUnknown.getD false && !v.acceptsAll) = true then emptyCheck e v pre span errs l'
    else Res.ok errs) = r0
  cases r0 with
  | err y => rfl
  | panic => rfl
  | ok errs1 =>
    simp only
    have hfail : ∀ y : SynErr, conclude e .parseError (if (e.unknownOk || v.allowUnknown.getD false || !v.acceptsAll) = true then
        errs1.pushSyn y else disallowPaths (removePaths paths v.flatNames) (otherFlatNames e (some i)) v.ident
          (errs1.pushSyn y)) ≠ .ok x := by
      intro y h
      obtain ⟨z, h1, _⟩ := conclude_none e (value := .parseError) (errs := if (e.unknownOk || v.allowUnknown.getD false ||
        !v.acceptsAll) = true then errs1.pushSyn y else disallowPaths (removePaths paths v.flatNames)
          (otherFlatNames e (some i)) v.ident (errs1.pushSyn y)) rfl (by
        split
        · simp [SynErr.toList]
        · obtain ⟨ms, hms⟩ := disallow_msgs (removePaths paths v.flatNames) (otherFlatNames e (some i)) v.ident
            (errs1.pushSyn y)
          rw [hms]
          simp [SynErr.toList])
      rw [h1] at h
      cases h
    have hv := hv (!v.acceptsAll && !(empty && !v.allowUnknown.getD false))
    generalize namedFlat (v.data site span) (Field.fieldNames v.fields) (.named span) pre
      (!v.acceptsAll && !(empty && !v.allowUnknown.getD false)) l = a at hv ⊢
    generalize namedFlat (v.data site span) (Field.fieldNames v.fields) (.named span) pre
      (!v.acceptsAll && !(empty && !v.allowUnknown.getD false)) l' = a' at hv ⊢
    obtain ⟨r, l1⟩ := a
    obtain ⟨r', l1'⟩ := a'
    cases r with
    | ok y =>
      obtain rfl : r' = .ok y := (hv y).1 rfl
      rfl
    | err y =>
      cases r' with
      | ok y' => cases (hv y').2 rfl
      | err y' => exact ⟨fun h => absurd h (hfail y), fun h => absurd h (hfail y')⟩
      | panic => exact ⟨fun h => absurd h (hfail y), fun h => (by cases h)⟩
    | panic =>
      cases r' with
      | ok y' => cases (hv y').2 rfl
      | err y' => exact ⟨fun h => (by cases h), fun h => absurd h (hfail y')⟩
      | panic => rfl

theorem enumEnds_tolerant {e : EnumDef V} {site : Site V} (pre : Str) (span : Span) (validate : Bool) (st : EnumSt V)
    (errs : Errors) {l l' : List Stream}
    (hk : ∀ allowed errs, (checkKeys allowed errs (forkInputs l)).1 = (checkKeys allowed errs (forkInputs l')).1)
    (hk' : ∀ allowed errs, (checkKeys allowed errs l).1 = (checkKeys allowed errs l').1)
    (hv : ∀ v ∈ e.variants, v.ByFields → ∀ validate,
      SameOk (namedFlat (v.data site span) (Field.fieldNames v.fields) (.named span) pre validate l).1
        (namedFlat (v.data site span) (Field.fieldNames v.fields) (.named span) pre validate l').1) :
    SameOk (enumEnds e site pre span validate st errs l) (enumEnds e site pre span validate st errs l') := by
  have hvp : ∀ errs, (validatePass e validate errs l).1 = (validatePass e validate errs l').1 := by
    intro errs
    unfold validatePass
    split
    · exact hk' _ _
    · rfl
  have hvm : ∀ {α : Type} (errs : Errors) (f : Errors → Res α), (match validatePass e validate errs l with
      | (.ok errs, l1) => (f errs, l1)
      | (.err x, l1) => (.err x, l1)
      | (.panic, l1) => (.panic, l1) : Res α × List Stream).1 = (match validatePass e validate errs l' with
      | (.ok errs, l1) => (f errs, l1)
      | (.err x, l1) => (.err x, l1)
      | (.panic, l1) => (.panic, l1) : Res α × List Stream).1 := by
    intro α errs f
    have := hvp errs
    generalize validatePass e validate errs l = a at this ⊢
    generalize validatePass e validate errs l' = a' at this ⊢
    obtain ⟨r, l1⟩ := a
    obtain ⟨r', l1'⟩ := a'
    obtain rfl : r = r' := this
    cases r <;> rfl
  obtain ⟨key, value, paths⟩ := st
  cases value with
  | parseError => exact fun _ => Iff.rfl
  | some y =>
    cases key with
    | none => exact fun _ => Iff.rfl
    | some key =>
      have := hvm (if e.anyFlat && !e.unknownOk && !validate then
          disallowPaths (paths.remove key) (otherFlatNames e none) key errs else errs) fun errs =>
            .ok ((FieldStatus.some y : FieldStatus (EnumVal V)), errs)
      have h : (pick e site pre span validate ⟨some key, .some y, paths⟩ errs l).1 =
          (pick e site pre span validate ⟨some key, .some y, paths⟩ errs l').1 := this
      intro x
      unfold enumEnds
      rw [h]
  | none =>
    intro x
    unfold enumEnds
    simp only [pick, pickFlat]
    cases hf : e.flatMatches.find? fun x => !x.1.isEmpty && hasPaths paths x.1 with
    | some y =>
      obtain ⟨ky, v, i⟩ := y
      obtain ⟨_, h1, h2⟩ := mem_flatMatches (List.mem_of_find?_eq_some hf)
      exact flatBlock_tolerant pre span _ v i false errs hk (hv v (List.mem_of_getElem? h1) h2) x
    | none =>
      simp only
      cases hf : e.flatMatches.find? fun x => x.1.isEmpty with
      | some y =>
        obtain ⟨ky, v, i⟩ := y
        obtain ⟨_, h1, h2⟩ := mem_flatMatches (List.mem_of_find?_eq_some hf)
        exact flatBlock_tolerant pre span _ v i true errs hk (hv v (List.mem_of_getElem? h1) h2) x
      | none =>
        simp only
        cases e.default with
        | some y => exact Iff.rfl
        | none =>
          have := hvm errs fun errs =>
            .ok ((FieldStatus.none : FieldStatus (EnumVal V)), variantRequired span pre e.keyMsgs errs)
          exact Iff.of_eq (congrArg (fun p : Picked V => (match p with
            | .ok (value, errs) => conclude e value errs
            | .err x => .err x
            | .panic => .panic : Res (EnumVal V)) = .ok x) this)

/-- Without flattened variants and without a check of keys the tokens are not looked at again. -/
theorem enumEnds_nofork {e : EnumDef V} {site : Site V} (hf : (e.anyFlat || !e.unknownOk) = false) (pre : Str)
    (span : Span) (validate : Bool) (st : EnumSt V) (errs : Errors) (l l' : List Stream) :
    enumEnds e site pre span validate st errs l = enumEnds e site pre span validate st errs l' := by
  simp only [Bool.or_eq_false_iff, Bool.not_eq_false'] at hf
  have hm : e.flatMatches = [] := by
    cases h : e.flatMatches with
    | nil => rfl
    | cons y ys =>
      obtain ⟨_, h1, h2⟩ := mem_flatMatches (y := y) (by rw [h]; exact .head _)
      have : e.anyFlat = true := List.any_eq_true.2 ⟨y.2.1, List.mem_of_getElem? h1, by simp [h2.1, h2.2]⟩
      rw [hf.1] at this
      cases this
  obtain ⟨key, value, paths⟩ := st
  cases value with
  | parseError => rfl
  | some y => cases key <;> simp [enumEnds, pick, validatePass, hf.2]
  | none => 
    simp only [enumEnds, pick, pickFlat, hm, List.find?_nil]
    cases e.default <;> simp [validatePass, hf.2]

/-- **C118.**  A comma after the last item makes no difference to an enum, if it makes none to the flattened fields of its
flattened variants. -/
theorem c118_enum_any {e : EnumDef V} {site : Site V} (ha : e.Accepted site) (hg : e.FieldsFine) (hn : e.Infallible)
    (hi : ∀ v ∈ e.variants, ∀ f ∈ v.fields, f.item.EndsAlike) (k : Span) (pre : Str) (validate : Bool)
    (hfl : ∀ v ∈ e.variants, v.ByFields → ∀ f ∈ v.fields, f.flatParsable = true →
      Tolerant (f.flatCall pre k (Field.fieldNames v.fields))) :
    Tolerant (enumFlat e site (.named k) pre validate) := by
  have hb := EnumDef.byNameGood ha hg hn
  have he := strictVariant_ends hi site pre
  intro ts c sc u x hns hc
  rw [enum_iff hb, enum_iff hb]
  have hv : ∀ v ∈ e.variants, v.ByFields → ∀ validate,
      SameOk (namedFlat (v.data site k) (Field.fieldNames v.fields) (.named k) pre validate [⟨ts ++ [c], sc, u⟩]).1
        (namedFlat (v.data site k) (Field.fieldNames v.fields) (.named k) pre validate [⟨ts, sc, u⟩]).1 := by
    intro v hm hbf validate y
    have ha' := ha v hm hbf.2
    have ht : v.isTransparent = false := by
      cases h : v.isTransparent with
      | false => rfl
      | true => have := (ha'.transparent h).1; rw [hbf.1] at this; cases this
    have hg' := hg v hm hbf.2
    exact c118_struct_any (v.data site k) (ha'.data k) ht
      ⟨fun f hf _ => (hg'.item f hf).named, fun f hf => (hg'.item f hf).missing, hg'.flat (ha'.flatten hbf.1)⟩
      (hi v hm) (Field.fieldNames v.fields) k pre validate (hfl v hm hbf) ts c sc u y hns hc
  cases hfork : (e.anyFlat || !e.unknownOk) with
  | false =>
    have hs : ∀ s, variantsFrom e s = s := fun s => by simp [variantsFrom, hfork]
    rw [hs, hs]
    have hP : ∀ (bs : List (EItem V)) l, (enumEnds e site pre k validate (afterItems e pre bs).val
        (afterItems e pre bs).errs l = .ok x) = (enumEnds e site pre k validate (afterItems e pre bs).val
        (afterItems e pre bs).errs [] = .ok x) := fun bs l => by
      rw [enumEnds_nofork hfork pre k validate _ _ l []]
    simp only [hP]
    exact Reads.comma_iff he hc hns sc u fun bs => enumEnds e site pre k validate (afterItems e pre bs).val
        (afterItems e pre bs).errs [] = .ok x
  | true =>
    have hs : ∀ ts, variantsFrom e ⟨ts, sc, u⟩ = ⟨ts, sc, none⟩ := fun ts => by simp [variantsFrom, hfork, Stream.fork]
    have hl : ∀ l l', afterLoop e l l' = l := fun l l' => by simp [afterLoop, hfork]
    rw [hs, hs]
    simp only [hl]
    have hends : ∀ {rs s1 rs' s1'}, Reads (strictVariant e site pre) ⟨ts ++ [c], sc, none⟩ rs none s1 →
        Reads (strictVariant e site pre) ⟨ts, sc, none⟩ rs' none s1' → rs'.map (·.1) = rs.map (·.1) →
        ∀ st errs, SameOk (enumEnds e site pre k validate st errs [⟨ts ++ [c], sc, u⟩])
          (enumEnds e site pre k validate st errs [⟨ts, sc, u⟩]) := by
      intro rs s1 rs' s1' h1 h2 h3 st errs
      have hk : ∀ u allowed errs, (checkKeys allowed errs [⟨ts ++ [c], sc, u⟩]).1 = (checkKeys allowed errs [⟨ts, sc, u⟩]).1 := by
        intro u allowed errs
        obtain ⟨ks, s2, g1, g2⟩ := strict_keys he h1 u
        obtain ⟨ks', s2', g1', g2'⟩ := strict_keys he h2 u
        refine checkKeys_tolerant allowed errs (readsAll_one g1) (readsAll_one g1') ?_
        rw [g2, g2']
        have := congrArg (List.map (EItem.keyOf pre)) h3
        simpa [List.map_map, Function.comp_def] using this.symm
      exact enumEnds_tolerant pre k validate st errs (hk none) (hk u) hv
    constructor
    · rintro ⟨rs, s1, h1, h2⟩
      obtain ⟨rs', s1', h3, h4⟩ := h1.drop_comma he hc ts rfl hns
      exact ⟨rs', s1', h3, by rw [h4]; exact (hends h1 h3 h4 _ _ x).1 h2⟩
    · rintro ⟨rs, s1, h1, h2⟩
      obtain ⟨rs', s1', h3, h4⟩ := h1.add_comma he hc hns
      exact ⟨rs', s1', h3, by rw [h4]; exact (hends h3 h1 h4.symm _ _ x).2 h2⟩

/-! ## All flattened fields at once -/

omit [Env] in
theorem Tolerant.mapped {α β : Type} {q : M (List Stream) α} (h : Tolerant q) (g : Res α → Res β)
    (hg : ∀ r y, g r = .ok y → ∃ x, r = .ok x) : Tolerant (q.mapRes g) := by
  have key : ∀ l y, (q.mapRes g l).1 = .ok y ↔ ∃ x, (q l).1 = .ok x ∧ g (.ok x) = .ok y := by
    intro l y
    simp only [M.mapRes]
    constructor
    · intro h
      obtain ⟨x, hx⟩ := hg _ _ h
      exact ⟨x, hx, hx ▸ h⟩
    · rintro ⟨x, hx, h⟩
      rw [hx]
      exact h
  intro ts c sc u y hn hc
  rw [key, key]
  constructor
  · rintro ⟨x, h1, h2⟩; exact ⟨x, (h ts c sc u x hn hc).1 h1, h2⟩
  · rintro ⟨x, h1, h2⟩; exact ⟨x, (h ts c sc u x hn hc).2 h1, h2⟩

/-- The parsers of `append`, `rest` and `flatten` fields that deluxe offers or derives, in any nesting.  `embed` stands
for the values of the field as values of the structure around it. -/
inductive PlainFlat : {α : Type} → M (List Stream) α → Prop
  | appendSeq {α} (d : Dict α) (names : List Str) : (∀ n sp, Good (d.named n sp)) → d.EndsAlike →
      PlainFlat (seqAppend d names)
  | appendSet {α} [DecidableEq α] (d : Dict α) (names : List Str) : (∀ n sp, Good (d.named n sp)) → d.EndsAlike →
      PlainFlat (setAppend d names)
  | rest {κ ν} [DecidableEq κ] (kd : Dict κ) (keyStr : κ → Str) (vd : Dict ν) (exclude : List Str) :
      Good (kd.parse .unnamed) → (∀ n sp, Good (vd.named n sp)) → kd.EndsAlike → vd.EndsAlike →
      (∀ rest sc u x s', Boundary rest → kd.parse .unnamed ⟨rest, sc, u⟩ ≠ (.ok x, s')) →
      PlainFlat (mapRest kd keyStr vd exclude)
  | struct {W} (d : StructDef W) (k : Span) (pre : Str) (validate : Bool) : d.Accepted → d.isTransparent = false →
      FieldsGood d.fields → (∀ f ∈ d.fields, f.item.EndsAlike) →
      (∀ f ∈ d.fields, f.flatParsable = true → PlainFlat (f.flatCall pre k (Field.fieldNames d.fields))) →
      PlainFlat (d.flatNamed.parse (.named k) pre validate)
  | enum {W} (e : EnumDef W) (k : Span) (pre : Str) (validate : Bool) : e.Accepted .meta → e.FieldsFine → e.Infallible →
      (∀ v ∈ e.variants, ∀ f ∈ v.fields, f.item.EndsAlike) →
      (∀ v ∈ e.variants, v.ByFields → ∀ f ∈ v.fields, f.flatParsable = true →
        PlainFlat (f.flatCall pre k (Field.fieldNames v.fields))) →
      PlainFlat (e.flatNamed.parse (.named k) pre validate)
  | embed {α β} {q : M (List Stream) α} (f : α → β) : PlainFlat q → PlainFlat (q.mapRes (·.map f))

/-- **C118.**  A comma after the last item makes no difference to any of them. -/
theorem c118_every_flat {α : Type} {q : M (List Stream) α} (h : PlainFlat q) : Tolerant q := by
  induction h with
  | appendSeq d names h1 h2 => exact c118_append_sequence d h1 h2 names
  | appendSet d names h1 h2 => exact c118_append_set d h1 h2 names
  | rest kd keyStr vd exclude h1 h2 h3 h4 h5 => exact c118_rest kd keyStr vd h1 h2 h3 h4 h5 exclude
  | struct d k pre validate h1 h2 h3 h4 _ ih =>
    refine (c118_struct_any d.data h1.fields h2 h3 h4 (Field.fieldNames d.fields) k pre validate ih).mapped _ ?_
    intro r y h
    cases r with
    | ok x => exact ⟨x, rfl⟩
    | err e => cases h
    | panic => cases h
  | enum e k pre validate h1 h2 h3 h4 _ ih => exact c118_enum_any h1 h2 h3 h4 k pre validate ih
  | embed f _ ih =>
    refine ih.mapped _ ?_
    intro r y h
    cases r with
    | ok x => exact ⟨x, rfl⟩
    | err e => cases h
    | panic => cases h

end
end Deluxe
