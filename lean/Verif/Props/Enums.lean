import Verif.Lemmas.EnumOut
/-!
# C43, C44, C45, C54: derived enums

`enumFlat e site mode pre validate` is the parser generated for an enum.  The input is given by its items
(`ItemsAll (EnumSeg e site pre) l bs`), see `Verif/Spec/Enum.lean`.
-/
namespace Deluxe

variable {V : Type}

section
variable [Env]

/-! ## C43 -/

/-- C43: if the items name exactly one variant and its value parses to `x`, then the outcome is that
variant with the `and_then` functions applied, unless keys are left over: with keys checked, those that
the enum does not know; without, those of flattened variants. -/
theorem c43_one {e : EnumDef V} {site : Site V} (ha : e.Accepted site) (hg : e.FieldsFine)
    (hn : e.Infallible) (mode : Mode) (pre : Str) (validate : Bool) {l bs}
    (h : ItemsAll (EnumSeg e site pre) l bs) {i k sp x} (h1 : named bs = [(i, k, sp, .ok x)]) :
    Finishes e (i, x)
      ((if !validate && !e.unknownOk && e.anyFlat then
          otherMsgs e none k fun n => if n = k then none else lastSpan (seenKeys pre bs) n else []) ++
        checkMsgs (!e.unknownOk && validate) e.fieldNames (allKeys pre bs))
      (enumFlat e site mode pre validate l).1 := by
  obtain ⟨errs, l1, a1, a2, _, a4⟩ := enum_setup (e.byNameGood ha hg hn) mode pre validate h
  obtain ⟨errs', b1, b2⟩ := pick_one (site := site) (mode.toFullSpan l) validate h1 errs a2
  rw [a4, b1]
  have := conclude_some e (i, x) errs'
  rw [b2, a1, variantMsgs_one h1, List.nil_append] at this
  exact this

omit [Env] in
/-- Success of `Finishes`. -/
theorem finishes_ok {e : EnumDef V} {x : EnumVal V} {msgs : List Msg} {out : Res (EnumVal V)}
    (h : Finishes e x msgs out) (y : EnumVal V) :
    out = .ok y ↔ msgs = [] ∧ runThens e.andThens x = .ok y := by
  unfold Finishes at h
  cases hr : runThens e.andThens x with
  | ok z =>
    rw [hr] at h
    by_cases hm : msgs = []
    · rw [h.1 hm]; simp [hm]
    · obtain ⟨err, h1, _⟩ := h.2 hm
      rw [h1]; simp [hm]
  | error err =>
    rw [hr] at h
    obtain ⟨err, h1, _⟩ := h
    rw [h1]; simp

theorem checkMsgs_nil {check : Bool} {allowed : List Str} {ks : List (Str × Span)} :
    checkMsgs check allowed ks = [] ↔ (check = true → ∀ k ∈ ks, k.1 ∈ allowed) := by
  simp only [checkMsgs, List.flatMap_eq_nil_iff, unknownMsgs]
  constructor
  · intro h hc k hk
    have := h k hk
    by_cases hm : k.1 ∈ allowed
    · exact hm
    · simp [hc, hm, SynErr.toList] at this
  · intro h k hk
    rw [if_neg]
    rintro ⟨hc, hm⟩
    exact hm (h hc k hk)

/-- C43: with keys checked, one variant item gives a value exactly if it parses, all keys are known and
no `and_then` function fails. -/
theorem c43_one_ok {e : EnumDef V} {site : Site V} (ha : e.Accepted site) (hg : e.FieldsFine)
    (hn : e.Infallible) (mode : Mode) (pre : Str) {l bs} (h : ItemsAll (EnumSeg e site pre) l bs)
    {i k sp x} (h1 : named bs = [(i, k, sp, x)]) (y : EnumVal V) :
    (enumFlat e site mode pre true l).1 = .ok y ↔
      (e.unknownOk = false → ∀ key ∈ allKeys pre bs, key.1 ∈ e.fieldNames) ∧
        ∃ vs, x = .ok vs ∧ runThens e.andThens (i, vs) = .ok y := by
  cases x with
  | ok vs =>
    have := c43_one ha hg hn mode pre true h h1
    simp only [Bool.not_true, Bool.false_and, Bool.false_eq_true, if_false, List.nil_append] at this
    rw [finishes_ok this, checkMsgs_nil]
    simp
  | error err =>
    obtain ⟨errs, l1, a1, _, _, a4⟩ := enum_setup (e.byNameGood ha hg hn) mode pre true h
    have hv : (afterItems e pre bs).val.value = .parseError := enumAdd_value_one e pre bs _ h1 rfl
    have hr : errs.toList ≠ [] := by
      rw [a1]
      have := enumAdd_reported e pre bs ⟨⟨none, .none, []⟩, Errors.new⟩ (by simp) hv
      rw [enumAdd_msgs] at this
      simpa using this
    rw [a4]
    simp only [pick, hv]
    obtain ⟨z, hz, _⟩ := conclude_none e (value := .parseError) rfl hr
    rw [hz]
    simp

/-- Every message about the items that name variants is reported. -/
theorem enum_fails {e : EnumDef V} {site : Site V} (ha : e.Accepted site) (hg : e.FieldsFine)
    (hn : e.Infallible) (mode : Mode) (pre : Str) (validate : Bool) {l bs}
    (h : ItemsAll (EnumSeg e site pre) l bs) (h1 : named bs ≠ []) (h2 : variantMsgs pre none bs ≠ []) :
    ∃ err, (enumFlat e site mode pre validate l).1 = .err err ∧
      (variantMsgs pre none bs).Sublist err.toList := by
  obtain ⟨errs, l1, a1, _, _, a4⟩ := enum_setup (e.byNameGood ha hg hn) mode pre validate h
  have hv := enumAdd_value_some e pre bs ⟨⟨none, .none, []⟩, Errors.new⟩ (.inl h1)
  obtain ⟨value, errs', ms, b1, b2⟩ := pick_keeps (e := e) (site := site) pre (mode.toFullSpan l) validate
    (afterItems e pre bs).val errs l1 hv (afterItems_some hv)
  rw [a4, b1]
  exact conclude_msgs e h2 (by rw [b2, a1]; exact List.sublist_append_left _ _)

omit [Env] in
theorem variantMsgs_later {pre : Str} {bs : List (EItem V)} {i b sp x} {a : Str}
    (h : (i, b, sp, x) ∈ named bs) :
    ⟨sp, .onlyOneVariant (joinPath pre a) (joinPath pre b)⟩ ∈ variantMsgs pre (some a) bs := by
  induction bs with
  | nil => simp [named] at h
  | cons c bs ih =>
    cases c with
    | variant i' k' sp' x' =>
      simp only [named, List.mem_cons] at h
      simp only [variantMsgs, List.mem_append, Option.getD_some]
      rcases h with h | h
      · simp only [Prod.mk.injEq] at h
        obtain ⟨_, rfl, rfl, _⟩ := h
        exact .inl (.inl (by simp))
      · exact .inr (ih h)
    | other key sp => exact ih h

omit [Env] in
theorem variantMsgs_two {pre : Str} {bs : List (EItem V)} {i a sp x rest}
    (h : named bs = (i, a, sp, x) :: rest) {j b sp' x'} (h' : (j, b, sp', x') ∈ rest) :
    ⟨sp', .onlyOneVariant (joinPath pre a) (joinPath pre b)⟩ ∈ variantMsgs pre none bs := by
  induction bs with
  | nil => simp [named] at h
  | cons c bs ih =>
    cases c with
    | variant i1 k1 sp1 x1 =>
      simp only [named, List.cons.injEq, Prod.mk.injEq] at h
      obtain ⟨⟨rfl, rfl, rfl, rfl⟩, rfl⟩ := h
      simp only [variantMsgs, List.mem_append, Option.getD_none]
      exact .inr (variantMsgs_later h')
    | other key sp => exact ih h

/-- C43: if two or more items name variants (also if it is the same variant) there is an error, and each
item after the first is reported together with the first. -/
theorem c43_two {e : EnumDef V} {site : Site V} (ha : e.Accepted site) (hg : e.FieldsFine)
    (hn : e.Infallible) (mode : Mode) (pre : Str) (validate : Bool) {l bs}
    (h : ItemsAll (EnumSeg e site pre) l bs) {i a sp x j b sp' x' rest}
    (h1 : named bs = (i, a, sp, x) :: rest) (h2 : (j, b, sp', x') ∈ rest) :
    ∃ err, (enumFlat e site mode pre validate l).1 = .err err ∧
      ⟨sp', .onlyOneVariant (joinPath pre a) (joinPath pre b)⟩ ∈ err.toList := by
  have hm := variantMsgs_two (pre := pre) h1 h2
  obtain ⟨err, h3, h4⟩ := enum_fails ha hg hn mode pre validate h (by simp [h1])
    (List.ne_nil_of_mem hm)
  exact ⟨err, h3, h4.subset hm⟩

omit [Env] in
theorem variantMsgs_value {pre : Str} {bs : List (EItem V)} {i k sp err} (h : .variant i k sp (.error err) ∈ bs)
    (first : Option Str) : err.toList.Sublist (variantMsgs pre first bs) := by
  induction bs generalizing first with
  | nil => cases h
  | cons b bs ih =>
    rcases List.mem_cons.1 h with rfl | hm
    · simp only [variantMsgs]
      exact (List.sublist_append_right _ _).trans (List.sublist_append_left _ _)
    · cases b with
      | variant i k sp x => exact (ih hm _).trans (List.sublist_append_right _ _)
      | other key sp => exact ih hm first

/-- C43: every variant item whose value fails is reported with all its messages, whatever the other
items are. -/
theorem c43_failing_value {e : EnumDef V} {site : Site V} (ha : e.Accepted site) (hg : e.FieldsFine)
    (hn : e.Infallible) (mode : Mode) (pre : Str) (validate : Bool) {l bs}
    (h : ItemsAll (EnumSeg e site pre) l bs) {i k sp err} (h1 : .variant i k sp (.error err) ∈ bs) :
    ∃ err', (enumFlat e site mode pre validate l).1 = .err err' ∧ err.toList.Sublist err'.toList := by
  have hm := variantMsgs_value (pre := pre) h1 none
  have hne : variantMsgs pre none bs ≠ [] := fun h0 => by
    rw [h0] at hm
    simpa [SynErr.toList] using List.sublist_nil.1 hm
  obtain ⟨err', h3, h4⟩ := enum_fails ha hg hn mode pre validate h
    (List.ne_nil_of_mem ((named_mem (y := (i, k, sp, .error err))).2 h1)) hne
  exact ⟨err', h3, hm.trans h4⟩

omit [Env] in
theorem variantMsgs_eq_nil {pre : Str} {bs : List (EItem V)} (h : variantMsgs pre none bs = []) :
    named bs = [] ∨ ∃ i k sp x, named bs = [(i, k, sp, .ok x)] := by
  have later : ∀ (bs : List (EItem V)) a, variantMsgs pre (some a) bs = [] → named bs = [] := by
    intro bs
    induction bs with
    | nil => intro _ _; rfl
    | cons b bs ih =>
      intro a h
      cases b with
      | variant i k sp x => simp [variantMsgs] at h
      | other key sp => exact ih a h
  induction bs with
  | nil => exact .inl rfl
  | cons b bs ih =>
    cases b with
    | variant i k sp x =>
      simp only [variantMsgs, List.nil_append, Option.getD_none, List.append_eq_nil_iff] at h
      cases x with
      | error e => simp [SynErr.toList] at h
      | ok vs => exact .inr ⟨i, k, sp, vs, by simp [named, later bs k h.2]⟩
    | other key sp => exact ih h

omit [Env] in
theorem conclude_ok {e : EnumDef V} {value : FieldStatus (EnumVal V)} {errs : Errors} {y}
    (h : conclude e value errs = .ok y) :
    errs.toList = [] ∧ ∃ x, value = .some x ∧ runThens e.andThens x = .ok y := by
  cases hv : value with
  | some x =>
    rw [hv] at h
    obtain ⟨h1, h2⟩ := (finishes_ok (conclude_some e x errs) y).1 h
    exact ⟨h1, x, rfl, h2⟩
  | none =>
    by_cases he : errs.toList = []
    · rw [hv] at h
      have : enumAndThens e.andThens none errs = (none, errs) := by
        unfold enumAndThens
        induction e.andThens with
        | nil => rfl
        | cons f fs ih => exact ih
      rcases errs with ⟨_ | x⟩
      · simp [conclude, FieldStatus.intoOption, this, Errors.check, Errors.intoResult] at h
      · simp [Errors.toList, SynErr.toList] at he
    · rw [hv] at h
      obtain ⟨z, hz, _⟩ := conclude_none e (value := .none) rfl he
      rw [hz] at h; cases h
  | parseError =>
    by_cases he : errs.toList = []
    · rw [hv] at h
      have : enumAndThens e.andThens none errs = (none, errs) := by
        unfold enumAndThens
        induction e.andThens with
        | nil => rfl
        | cons f fs ih => exact ih
      rcases errs with ⟨_ | x⟩
      · simp [conclude, FieldStatus.intoOption, this, Errors.check, Errors.intoResult] at h
      · simp [Errors.toList, SynErr.toList] at he
    · rw [hv] at h
      obtain ⟨z, hz, _⟩ := conclude_none e (value := .parseError) rfl he
      rw [hz] at h; cases h

theorem flatBlock_value {e : EnumDef V} {site : Site V} {pre : Str} {span : Span} {paths : PathMap}
    {v : Variant V} {i : Nat} {empty : Bool} {errs errs' : Errors} {l : List Stream} {x}
    (h : (flatBlock e site pre span paths v i empty errs l).1 = .ok (.some x, errs')) :
    ∃ vs check, x = (i, vs) ∧ (namedFlat (v.data site span) (Field.fieldNames v.fields) (.named span) pre
      check l).1 = .ok vs := by
  simp only [flatBlock] at h
  split at h
  · split at h
    · rename_i y hy
      simp only [Res.ok.injEq, Prod.mk.injEq, FieldStatus.some.injEq] at h
      exact ⟨y, _, h.1.symm, hy⟩
    · simp at h
    · cases h
  · cases h
  · cases h

/-- The enum has a value from a variant that is not named: a flattened one whose fields parse, or the
default. -/
inductive Unnamed (e : EnumDef V) (site : Site V) (pre : Str) (span : Span) (l : List Stream) :
    EnumVal V → Prop
  | flat {i v vs check} : e.variants[i]? = some v → v.ByFields →
      (namedFlat (v.data site span) (Field.fieldNames v.fields) (.named span) pre check l).1 = .ok vs →
      Unnamed e site pre span l (i, vs)
  | default {x} : e.default = some x → Unnamed e site pre span l x

/-- C43, on any input, also malformed: there is a value only if all tokens are items, and either exactly
one of them names a variant, whose value parsed, or none does and a flattened variant or the default
applies. -/
theorem c43_value {e : EnumDef V} {site : Site V} (ha : e.Accepted site) (hg : e.FieldsFine)
    (hn : e.Infallible) (mode : Mode) (pre : Str) (validate : Bool) {l : List Stream} {y}
    (h : (enumFlat e site mode pre validate l).1 = .ok y) :
    ∃ rs l1 x, ReadsAll (enumItem e site pre)
        (if e.anyFlat || !e.unknownOk then forkInputs l else l) rs none l1 ∧
      runThens e.andThens x = .ok y ∧
      ((∃ k sp, named (rs.map (·.1)) = [(x.1, k, sp, .ok x.2)]) ∨
        (named (rs.map (·.1)) = [] ∧ ∃ l', (e.anyFlat = true → l' = l) ∧
          Unnamed e site pre (mode.toFullSpan l) l' x)) := by
  have hb := e.byNameGood ha hg hn
  obtain ⟨rs, fatal, l1, hr⟩ := ReadsAll.exists (enumItem_good hb pre)
    (if e.anyFlat || !e.unknownOk then forkInputs l else l)
  obtain ⟨errs, h1, h2⟩ := enumFlat_eq hb mode pre validate hr
  rw [h2] at h
  have hal : e.anyFlat = true → afterLoop e l l1 = l := fun hf => by simp [afterLoop, hf]
  generalize afterLoop e l l1 = lx at h hal
  generalize hbs : rs.map (·.1) = bs at *
  have keep : ∀ value errs' l2, pick e site pre (mode.toFullSpan l) validate (afterItems e pre bs).val errs lx =
      (.ok (value, errs'), l2) → errs'.toList = [] → errs.toList = [] ∧
        ∀ x, value = .some x → (afterItems e pre bs).val.value = .some x ∨
          ((afterItems e pre bs).val.value = .none ∧ Unnamed e site pre (mode.toFullSpan l) lx x) := by
    intro value errs' l2 hp he
    have hvp : ∀ errs : Errors, ∃ errs' l' ms, validatePass e validate errs lx = (.ok errs', l') ∧
        errs'.toList = errs.toList ++ ms := by
      intro errs
      unfold validatePass
      split
      · obtain ⟨rs, fatal, l', h⟩ := ReadsAll.exists keyItem_good lx
        obtain ⟨errs', h1, h2⟩ := checkKeys_reads e.fieldNames errs h
        exact ⟨errs', l', _, h1, h2⟩
      · exact ⟨errs, lx, [], rfl, by simp⟩
    have flatCase : ∀ v i empty, e.variants[i]? = some v → v.ByFields →
        flatBlock e site pre (mode.toFullSpan l) (afterItems e pre bs).val.paths v i empty errs lx =
          (.ok (value, errs'), l2) → errs.toList = [] ∧
            ∀ x, value = .some x → Unnamed e site pre (mode.toFullSpan l) lx x := by
      intro v i empty hv hf hfb
      constructor
      · simp only [flatBlock] at hfb
        split at hfb
        · rename_i errs1 hq
          have e1 : errs1.toList = [] → errs.toList = [] := by
            split at hq
            · simp only [emptyCheck] at hq
              split at hq
              · intro _
                rename_i hne
                rcases errs with ⟨_ | z⟩
                · rfl
                · simp [Errors.bail, Errors.unwrapErr] at hq
              · rename_i hne
                intro _
                rcases errs with ⟨_ | z⟩
                · rfl
                · simp [Errors.isEmpty] at hne
            · cases hq; exact id
          have e2 : ∀ (c : Bool) (errsx : Errors) m k n,
              (if c then errsx else disallowPaths m k n errsx).toList = [] → errsx.toList = [] := by
            intro c errsx m k n
            cases c
            · simp only [Bool.false_eq_true, if_false]
              obtain ⟨ms, hms⟩ := disallow_msgs m k n errsx
              rw [hms]
              exact fun h0 => (List.append_eq_nil_iff.1 h0).1
            · exact id
          split at hfb
          · simp only [Prod.mk.injEq, Res.ok.injEq] at hfb
            rw [← hfb.1.2] at he
            exact e1 (e2 _ _ _ _ _ he)
          · simp only [Prod.mk.injEq, Res.ok.injEq] at hfb
            rw [← hfb.1.2] at he
            have := e2 _ _ _ _ _ he
            simp [SynErr.toList] at this
          · cases hfb
        · cases hfb
        · cases hfb
      · intro x hx
        subst hx
        obtain ⟨vs, check, rfl, h4⟩ := flatBlock_value (h := by rw [hfb])
        exact .flat hv hf h4
    simp only [pick] at hp
    split at hp
    · rename_i x hx
      split at hp
      · cases hp
      · rename_i key hk
        obtain ⟨errs2, l', ms, h3, h4⟩ := hvp (if e.anyFlat && !e.unknownOk && !validate then
          disallowPaths ((afterItems e pre bs).val.paths.remove key) (otherFlatNames e none) key errs else errs)
        rw [h3] at hp
        simp only [Prod.mk.injEq, Res.ok.injEq] at hp
        obtain ⟨⟨rfl, rfl⟩, _⟩ := hp
        rw [he] at h4
        have h5 := (List.append_eq_nil_iff.1 h4.symm).1
        refine ⟨?_, fun y hy => .inl (by rw [hx]; exact hy)⟩
        split at h5
        · obtain ⟨ms, hms⟩ := disallow_msgs ((afterItems e pre bs).val.paths.remove key)
            (otherFlatNames e none) key errs
          rw [hms] at h5
          exact (List.append_eq_nil_iff.1 h5).1
        · exact h5
    · simp only [Prod.mk.injEq, Res.ok.injEq] at hp
      obtain ⟨⟨rfl, rfl⟩, _⟩ := hp
      exact ⟨he, by simp⟩
    · rename_i hnone
      simp only [pickFlat] at hp
      split at hp
      · rename_i k v i hfind
        obtain ⟨_, h4, h5⟩ := find_flatMatches (p := fun k => !k.isEmpty && hasPaths _ k) hfind
        obtain ⟨h6, h7⟩ := flatCase v i false h4 h5 hp
        exact ⟨h6, fun x hx => .inr ⟨hnone, h7 x hx⟩⟩
      · split at hp
        · rename_i k v i hfind
          obtain ⟨_, h4, h5⟩ := find_flatMatches (p := fun k => k.isEmpty) hfind
          obtain ⟨h6, h7⟩ := flatCase v i true h4 h5 hp
          exact ⟨h6, fun x hx => .inr ⟨hnone, h7 x hx⟩⟩
        · split at hp
          · rename_i x hx
            simp only [Prod.mk.injEq, Res.ok.injEq] at hp
            obtain ⟨⟨rfl, rfl⟩, _⟩ := hp
            refine ⟨he, fun y hy => .inr ⟨hnone, ?_⟩⟩
            cases hy
            exact .default hx
          · obtain ⟨errs2, l', ms, h3, _⟩ := hvp errs
            rw [h3] at hp
            simp only [Prod.mk.injEq, Res.ok.injEq] at hp
            obtain ⟨⟨rfl, rfl⟩, _⟩ := hp
            simp [variantRequired] at he
  cases hp : pick e site pre (mode.toFullSpan l) validate (afterItems e pre bs).val errs lx with
  | mk r l2 =>
    rw [hp] at h
    cases r with
    | err z => cases h
    | panic => cases h
    | ok z =>
      obtain ⟨value, errs'⟩ := z
      simp only at h
      obtain ⟨h3, x, h4, h5⟩ := conclude_ok h
      obtain ⟨h6, h7⟩ := keep value errs' l2 hp h3
      rw [h6] at h1
      have h8 := List.append_eq_nil_iff.1 h1.symm
      have hfatal : fatal = none := by
        cases fatal with
        | none => rfl
        | some z => simp [stopMsgs, SynErr.toList] at h8
      subst hfatal
      refine ⟨rs, l1, x, hr, h5, ?_⟩
      rw [hbs]
      rcases variantMsgs_eq_nil h8.1 with hn0 | ⟨i, k, sp, vs, hn1⟩
      · refine .inr ⟨hn0, lx, hal, ?_⟩
        rcases h7 x h4 with h9 | ⟨_, h9⟩
        · rw [afterItems, enumAdd_value_none _ _ _ _ hn0] at h9
          cases h9
        · exact h9
      · refine .inl ⟨k, sp, ?_⟩
        have hv : (afterItems e pre bs).val.value = .some (i, vs) := enumAdd_value_one e pre bs _ hn1 rfl
        rcases h7 x h4 with h9 | ⟨h9, _⟩
        · rw [hv] at h9
          cases h9
          exact hn1
        · rw [hv] at h9
          cases h9

/-! ## C44 -/

/-- C44: on any input an enum returns a value or an error, never panics, if the fields of its transparent
variants have no failing `and_then` functions. -/
theorem c44_enum_partial {e : EnumDef V} {site : Site V} (ha : e.Accepted site) (hg : e.FieldsFine)
    (hn : e.Infallible) (mode : Mode) (pre : Str) (validate : Bool) (l : List Stream) :
    (enumFlat e site mode pre validate l).1 ≠ .panic :=
  (enumFlat_good ha hg hn mode pre validate l).1

/-- C44: the same for all methods of the derived trait implementations. -/
theorem c44_traits_partial {e : EnumDef V} (ha : e.Accepted .meta) (hg : e.FieldsFine) (hn : e.Infallible) :
    e.dict.Good ∧ e.flatNamed.Good ∧ e.flatUnnamed.Good :=
  ⟨e.dict_good ha hg hn, e.flatNamed_good ha hg hn, e.flatUnnamed_good ha hg hn⟩

/-- A transparent variant with one field. -/
def transparentVariant (andThen : Bool → Except SynErr Bool) : Variant Bool where
  ident := "A".toList
  shape := .unnamed
  fields := [{ plainField [] boolDict with ident := none, idents := [], transforms := [.andThen andThen] }]
  idents := ["a".toList]
  flatten := none
  transparent := some true
  skip := none
  allowUnknown := none

/-- `enum E { #[deluxe(transparent)] A(#[deluxe(and_then = f)] bool) }` -/
def transparentEnum (andThen : Bool → Except SynErr Bool) : EnumDef Bool where
  variants := [transparentVariant andThen]
  default := none
  allowUnknown := none
  andThens := []

/-- C44 is violated: if the `and_then` function of the field of a transparent variant fails, its message
is lost and the generated code panics. -/
theorem c44_and_then_violated (err : SynErr) :
    (transparentEnum fun _ => .error err).Accepted .meta ∧ (transparentEnum fun _ => .error err).FieldsFine ∧
      (enumFlat (transparentEnum fun _ => .error err) .meta .unnamed [] true
        [⟨[.ident "a".toList 1], 2, none⟩]).1 = .panic := by
  refine ⟨?_, ?_, rfl⟩
  · intro v hv _
    simp only [transparentEnum, List.mem_cons, List.not_mem_nil, or_false] at hv
    subst hv
    refine ⟨?_, ?_, ?_, ?_⟩ <;>
      simp [transparentVariant, plainField, Field.isParsable, Field.isContainer, NoAppendRest,
        Field.isFlat, Field.isFlatten, Variant.isFlatten]
  · intro v hv _
    simp only [transparentEnum, List.mem_cons, List.not_mem_nil, or_false] at hv
    subst hv
    refine ⟨?_, ?_, ?_⟩
    · intro f hf
      simp only [transparentVariant, List.mem_cons, List.not_mem_nil, or_false] at hf
      subst hf
      exact boolDict_good
    · simp [transparentVariant]
    · simp [transparentVariant, plainField, Field.flatParsable, Field.isFlat, Field.isFlatten]

/-! ## C45 -/

omit [Env] in
/-- Which flattened variants apply, in terms of the map of keys. -/
theorem applies_iff {e : EnumDef V} {pre : Str} {bs : List (EItem V)} {i : Nat} {v : Variant V}
    (hv : e.variants[i]? = some v) (hf : v.ByFields) :
    (!v.fieldKey.isEmpty && hasPaths (afterItems e pre bs).val.paths v.fieldKey) = true ↔
      Applies e ((seenKeys pre bs).map (·.1)) i v := by
  have hany : e.anyFlat = true :=
    List.any_eq_true.2 ⟨v, List.mem_of_getElem? hv, by simp [hf.1, hf.2]⟩
  have hkeys : ∀ k, k ∈ (afterItems e pre bs).val.paths.map (·.1) ↔ k ∈ (seenKeys pre bs).map (·.1) := by
    intro k
    rw [← lastSpan_isSome (seenKeys pre bs), ← afterItems_paths hany]
    generalize (afterItems e pre bs).val.paths = m
    induction m with
    | nil => simp [PathMap.get]
    | cons x m ih =>
      obtain ⟨a, sp⟩ := x
      by_cases ha : a = k
      · simp [PathMap.get, ha]
      · have ha' : ¬ k = a := fun h => ha h.symm
        simp only [List.map_cons, List.mem_cons, ha', false_or, ih]
        simp [PathMap.get, ha]
  rw [Bool.and_eq_true, v.hasPaths_iff, Bool.not_eq_true', ← Bool.not_eq_true, v.fieldKey_isEmpty]
  constructor
  · rintro ⟨h1, h2⟩
    refine ⟨hv, hf, h1, fun f hf' hr hn => ?_⟩
    obtain ⟨k, h3, h4⟩ := h2 f hf' hr hn
    exact ⟨k, h3, (hkeys k).1 h4⟩
  · rintro ⟨_, _, h1, h2⟩
    refine ⟨h1, fun f hf' hr hn => ?_⟩
    obtain ⟨k, h3, h4⟩ := h2 f hf' hr hn
    exact ⟨k, h3, (hkeys k).2 h4⟩

omit [Env] in
/-- No flattened variant applies. -/
theorem find_none {e : EnumDef V} {pre : Str} {bs : List (EItem V)}
    (h : ∀ i v, ¬ Applies e ((seenKeys pre bs).map (·.1)) i v) :
    e.flatMatches.find? (fun x => !x.1.isEmpty && hasPaths (afterItems e pre bs).val.paths x.1) = none := by
  rw [List.find?_eq_none]
  intro y hy hp
  obtain ⟨h1, h2, h3⟩ := mem_flatMatches hy
  rw [h1] at hp
  exact h _ _ ((applies_iff h2 h3).1 hp)

omit [Env] in
theorem afterItems_none {e : EnumDef V} {pre : Str} {bs : List (EItem V)} (h : named bs = []) :
    (afterItems e pre bs).val.value = .none := by
  rw [afterItems, enumAdd_value_none _ _ _ _ h]

/-- C45: if no variant is named and the keys of some flattened variant are there, one such variant is
chosen, and the outcome is that of its fields.  The choice does not depend on the order of the items or
of the variants: it is the one with the least key. -/
theorem c45_applies {e : EnumDef V} {site : Site V} (ha : e.Accepted site) (hg : e.FieldsFine)
    (hn : e.Infallible) (hd : e.DistinctKeys) (mode : Mode) (pre : Str) (validate : Bool) {l bs}
    (h : ItemsAll (EnumSeg e site pre) l bs) (h0 : named bs = [])
    (h1 : ∃ i v, Applies e ((seenKeys pre bs).map (·.1)) i v) :
    ∃ i v, Applies e ((seenKeys pre bs).map (·.1)) i v ∧
      (∀ j w, Applies e ((seenKeys pre bs).map (·.1)) j w → j = i ∨ cmpKey v.fieldKey w.fieldKey = .lt) ∧
      FlatOut e i
        (namedFlat (v.data site (mode.toFullSpan l)) (Field.fieldNames v.fields)
          (.named (mode.toFullSpan l)) pre (!v.acceptsAll) l).1
        (v.extraMsgs e i (seenKeys pre bs)) (enumFlat e site mode pre validate l).1 := by
  obtain ⟨errs, l1, a1, _, a3, a4⟩ := enum_setup (e.byNameGood ha hg hn) mode pre validate h
  obtain ⟨i0, v0, h1⟩ := h1
  have hany : e.anyFlat = true :=
    List.any_eq_true.2 ⟨v0, List.mem_of_getElem? h1.at_, by simp [h1.flat.1, h1.flat.2]⟩
  have := a3 hany
  subst this
  cases hfind : e.flatMatches.find?
      (fun x => !x.1.isEmpty && hasPaths (afterItems e pre bs).val.paths x.1) with
  | none =>
    rw [List.find?_eq_none] at hfind
    exact absurd ((applies_iff h1.at_ h1.flat).2 h1) (hfind _ (flatMatches_mem hd h1.at_ h1.flat))
  | some y =>
    obtain ⟨k, v, i⟩ := y
    obtain ⟨h4, h5, h6⟩ := find_flatMatches
      (p := fun k => !k.isEmpty && hasPaths (afterItems e pre bs).val.paths k) hfind
    refine ⟨i, v, (applies_iff h5 h6).1 h4, fun j w hw => ?_, ?_⟩
    · rcases find_least (btMap_sorted cmpKey_lawful _) hfind _ (flatMatches_mem hd hw.at_ hw.flat)
        ((applies_iff hw.at_ hw.flat).2 hw) with h7 | h7
      · simp only [Prod.mk.injEq] at h7
        exact .inl h7.2.2
      · have := (mem_flatMatches (List.mem_of_find?_eq_some hfind)).1
        simp only at this h7
        rw [this] at h7
        exact .inr h7
    · obtain ⟨rs, l', h7, h8⟩ := enumKeys (itemsAll_fork h)
      have hm := List.mem_of_getElem? h5
      obtain ⟨value, errs', h9, h10⟩ := flatBlock_out (ha v hm h6.2) (hg v hm h6.2) h6 hany pre
        (mode.toFullSpan l1) bs i false (by rw [a1, variantMsgs_nil h0]) l1 (by simp) ⟨rs, l', h7, h8⟩
      rw [a4]
      simp only [pick, afterItems_none h0, pickFlat, hfind, h9]
      simpa using h10

/-- C45: if the keys of exactly one flattened variant are there, it is selected. -/
theorem c45_unique {e : EnumDef V} {site : Site V} (ha : e.Accepted site) (hg : e.FieldsFine)
    (hn : e.Infallible) (hd : e.DistinctKeys) (mode : Mode) (pre : Str) (validate : Bool) {l bs}
    (h : ItemsAll (EnumSeg e site pre) l bs) (h0 : named bs = []) {i : Nat} {v : Variant V}
    (h1 : Applies e ((seenKeys pre bs).map (·.1)) i v)
    (hu : ∀ j w, Applies e ((seenKeys pre bs).map (·.1)) j w → j = i) :
    FlatOut e i
      (namedFlat (v.data site (mode.toFullSpan l)) (Field.fieldNames v.fields)
        (.named (mode.toFullSpan l)) pre (!v.acceptsAll) l).1
      (v.extraMsgs e i (seenKeys pre bs)) (enumFlat e site mode pre validate l).1 := by
  obtain ⟨j, w, h2, _, h3⟩ := c45_applies ha hg hn hd mode pre validate h h0 ⟨i, v, h1⟩
  obtain rfl := hu j w h2
  have := h1.at_.symm.trans h2.at_
  cases this
  exact h3

omit [Env] in
/-- The flattened variant without required fields, if there is one. -/
theorem find_keyless {e : EnumDef V} (hd : e.DistinctKeys) {i : Nat} {v : Variant V}
    (hv : e.variants[i]? = some v) (hf : v.ByFields) (hk : v.Keyless) :
    ∃ k, e.flatMatches.find? (fun x => x.1.isEmpty) = some (k, v, i) := by
  have hm := flatMatches_mem hd hv hf
  cases hfind : e.flatMatches.find? (fun x => x.1.isEmpty) with
  | none =>
    rw [List.find?_eq_none] at hfind
    exact absurd (v.fieldKey_isEmpty.2 hk) (hfind _ hm)
  | some y =>
    obtain ⟨k, w, j⟩ := y
    obtain ⟨h1, h2, h3⟩ := find_flatMatches (p := fun k => k.isEmpty) hfind
    have hs : v.SameKey w := (v.sameKey_iff w).2 <| by
      rw [List.isEmpty_iff.1 h1, List.isEmpty_iff.1 (v.fieldKey_isEmpty.2 hk)]
    obtain rfl := hd i j v w hv h2 hf h3 hs
    have := hv.symm.trans h2
    cases this
    exact ⟨k, rfl⟩

/-- C45: a flattened variant without required fields is the fallback: it is chosen if no variant is named,
no other flattened variant applies, and all keys are its own (or it takes any). -/
theorem c45_keyless {e : EnumDef V} {site : Site V} (ha : e.Accepted site) (hg : e.FieldsFine)
    (hn : e.Infallible) (hd : e.DistinctKeys) (mode : Mode) (pre : Str) (validate : Bool) {l bs}
    (h : ItemsAll (EnumSeg e site pre) l bs) (h0 : named bs = [])
    (h1 : ∀ i v, ¬ Applies e ((seenKeys pre bs).map (·.1)) i v) {i : Nat} {v : Variant V}
    (hv : e.variants[i]? = some v) (hf : v.ByFields) (hk : v.Keyless)
    (hown : v.acceptsAll = true ∨ ∀ k ∈ allKeys pre bs, k.1 ∈ Field.fieldNames v.fields) :
    FlatOut e i
      (namedFlat (v.data site (mode.toFullSpan l)) (Field.fieldNames v.fields)
        (.named (mode.toFullSpan l)) pre false l).1
      (v.extraMsgs e i (seenKeys pre bs)) (enumFlat e site mode pre validate l).1 := by
  obtain ⟨errs, l1, a1, _, a3, a4⟩ := enum_setup (e.byNameGood ha hg hn) mode pre validate h
  have hm := List.mem_of_getElem? hv
  have hany : e.anyFlat = true := List.any_eq_true.2 ⟨v, hm, by simp [hf.1, hf.2]⟩
  have := a3 hany
  subst this
  obtain ⟨k, hfind⟩ := find_keyless hd hv hf hk
  obtain ⟨rs, l', h7, h8⟩ := enumKeys (itemsAll_fork h)
  have hc : (true && !v.acceptsAll) = true →
      checkMsgs true (Field.fieldNames v.fields) (allKeys pre bs) = [] := fun hc => by
    rw [checkMsgs_nil]
    intro _ k hk
    rcases hown with h | h
    · simp [h] at hc
    · exact h k hk
  obtain ⟨value, errs', h9, h10⟩ := flatBlock_out (ha v hm hf.2) (hg v hm hf.2) hf hany pre
    (mode.toFullSpan l1) bs i true (by rw [a1, variantMsgs_nil h0]) l1 hc ⟨rs, l', h7, h8⟩
  rw [a4]
  simp only [pick, afterItems_none h0, pickFlat, find_none h1, hfind, h9]
  simpa using h10

/-- C45, C54: if there are other keys, the fallback is not chosen; they are reported together with the
names of all variants. -/
theorem c45_keyless_fails {e : EnumDef V} {site : Site V} (ha : e.Accepted site) (hg : e.FieldsFine)
    (hn : e.Infallible) (hd : e.DistinctKeys) (mode : Mode) (pre : Str) (validate : Bool) {l bs}
    (h : ItemsAll (EnumSeg e site pre) l bs) (h0 : named bs = [])
    (h1 : ∀ i v, ¬ Applies e ((seenKeys pre bs).map (·.1)) i v) {i : Nat} {v : Variant V}
    (hv : e.variants[i]? = some v) (hf : v.ByFields) (hk : v.Keyless) (hall : v.acceptsAll = false)
    (hown : ∃ k ∈ allKeys pre bs, k.1 ∉ Field.fieldNames v.fields) :
    FailsWith (enumFlat e site mode pre validate l).1
      (checkMsgs true (Field.fieldNames v.fields) (allKeys pre bs) ++
        [⟨mode.toFullSpan l, .expectedOneOf (e.keyMsgs.map (·.map (·.map (joinPath pre))))⟩]) := by
  obtain ⟨errs, l1, a1, _, a3, a4⟩ := enum_setup (e.byNameGood ha hg hn) mode pre validate h
  have hm := List.mem_of_getElem? hv
  have hany : e.anyFlat = true := List.any_eq_true.2 ⟨v, hm, by simp [hf.1, hf.2]⟩
  have := a3 hany
  subst this
  obtain ⟨k, hfind⟩ := find_keyless hd hv hf hk
  obtain ⟨rs, l', h7, h8⟩ := enumKeys (itemsAll_fork h)
  rw [variantMsgs_nil h0] at a1
  obtain ⟨errs', h9, h10⟩ := checkKeys_reads (Field.fieldNames v.fields) errs h7
  rw [h8, a1, List.nil_append] at h10
  have hne : errs'.toList ≠ [] := by
    rw [h10]
    intro h0
    obtain ⟨k, hk1, hk2⟩ := hown
    exact hk2 (checkMsgs_nil.1 h0 rfl k hk1)
  have hau : v.allowUnknown.getD false = false := by
    simp only [Variant.acceptsAll, Bool.or_eq_false_iff] at hall
    exact hall.1
  have he : errs.isEmpty = true := by
    rcases errs with ⟨_ | z⟩
    · rfl
    · simp [Errors.toList, SynErr.toList] at a1
  have he' : errs'.isEmpty = false := by
    rcases errs' with ⟨_ | z⟩
    · simp [Errors.toList] at hne
    · rfl
  rw [a4]
  simp only [pick, afterItems_none h0, pickFlat, find_none h1, hfind, flatBlock, hall, hau, emptyCheck, he, he',
    h9, Bool.not_true, Bool.not_false, Bool.and_self, Bool.true_and, if_true, Bool.false_eq_true, if_false]
  rw [← h10]
  have h11 : (variantRequired (mode.toFullSpan l1) pre e.keyMsgs errs').toList = errs'.toList ++
      [⟨mode.toFullSpan l1, .expectedOneOf (e.keyMsgs.map (·.map (·.map (joinPath pre))))⟩] := by
    simp [variantRequired]
  generalize variantRequired (mode.toFullSpan l1) pre e.keyMsgs errs' = errs2 at h11 ⊢
  rcases errs2 with ⟨_ | z⟩
  · simp [Errors.toList] at h11
  · exact ⟨z, rfl, h11⟩

/-! ## C54 -/

omit [Env] in
/-- If no variant is named, no flattened variant applies, and none is without required fields. -/
theorem find_no_keyless {e : EnumDef V}
    (h2 : ∀ (i : Nat) v, e.variants[i]? = some v → v.ByFields → ¬ v.Keyless) :
    e.flatMatches.find? (fun x => x.1.isEmpty) = none := by
  rw [List.find?_eq_none]
  intro y hy hp
  obtain ⟨a, b, c⟩ := mem_flatMatches hy
  rw [a, Variant.fieldKey_isEmpty] at hp
  exact h2 _ _ b c hp

/-- C54: if no variant is named, no flattened variant applies, and there is no default, the outcome is an
error that, after the unknown keys, lists the names of all variants. -/
theorem c54_required {e : EnumDef V} {site : Site V} (ha : e.Accepted site) (hg : e.FieldsFine)
    (hn : e.Infallible) (mode : Mode) (pre : Str) (validate : Bool) {l bs}
    (h : ItemsAll (EnumSeg e site pre) l bs) (h0 : named bs = [])
    (h1 : ∀ i v, ¬ Applies e ((seenKeys pre bs).map (·.1)) i v)
    (h2 : ∀ (i : Nat) v, e.variants[i]? = some v → v.ByFields → ¬ v.Keyless) (h3 : e.default = none) :
    FailsWith (enumFlat e site mode pre validate l).1
      (checkMsgs (!e.unknownOk && validate) e.fieldNames (allKeys pre bs) ++
        [⟨mode.toFullSpan l, .expectedOneOf (e.keyMsgs.map (·.map (·.map (joinPath pre))))⟩]) := by
  obtain ⟨errs, l1, a1, a2, _, a4⟩ := enum_setup (e.byNameGood ha hg hn) mode pre validate h
  rw [variantMsgs_nil h0] at a1
  obtain ⟨errs', l', b1, b2⟩ := validatePass_msgs e validate errs a2
  rw [a1, List.nil_append] at b2
  rw [a4]
  simp only [pick, afterItems_none h0, pickFlat, find_none h1, find_no_keyless h2, h3, b1]
  have h5 : (variantRequired (mode.toFullSpan l) pre e.keyMsgs errs').toList =
      checkMsgs (!e.unknownOk && validate) e.fieldNames (allKeys pre bs) ++
        [⟨mode.toFullSpan l, .expectedOneOf (e.keyMsgs.map (·.map (·.map (joinPath pre))))⟩] := by
    rw [← b2]
    simp [variantRequired]
  have := conclude_none e (value := .none) rfl
    (errs := variantRequired (mode.toFullSpan l) pre e.keyMsgs errs') (by rw [h5]; simp)
  rw [h5] at this
  exact this

/-- C45: the default is the last resort: it is taken if no variant is named and no flattened variant
applies. -/
theorem c45_default {e : EnumDef V} {site : Site V} (ha : e.Accepted site) (hg : e.FieldsFine)
    (hn : e.Infallible) (mode : Mode) (pre : Str) (validate : Bool) {l bs}
    (h : ItemsAll (EnumSeg e site pre) l bs) (h0 : named bs = [])
    (h1 : ∀ i v, ¬ Applies e ((seenKeys pre bs).map (·.1)) i v)
    (h2 : ∀ (i : Nat) v, e.variants[i]? = some v → v.ByFields → ¬ v.Keyless) {x} (h3 : e.default = some x) :
    Finishes e x [] (enumFlat e site mode pre validate l).1 := by
  obtain ⟨errs, l1, a1, a2, _, a4⟩ := enum_setup (e.byNameGood ha hg hn) mode pre validate h
  rw [variantMsgs_nil h0] at a1
  rw [a4]
  simp only [pick, afterItems_none h0, pickFlat, find_none h1, find_no_keyless h2, h3]
  have := conclude_some e x errs
  rw [a1] at this
  exact this

omit [Env] in
/-- A message among those of `Finishes` is reported. -/
theorem finishes_mem {e : EnumDef V} {x : EnumVal V} {msgs : List Msg} {out : Res (EnumVal V)}
    (h : Finishes e x msgs out) {m : Msg} (hm : m ∈ msgs) : ∃ err, out = .err err ∧ m ∈ err.toList := by
  unfold Finishes at h
  split at h
  · obtain ⟨err, h1, h2⟩ := h.2 (List.ne_nil_of_mem hm)
    exact ⟨err, h1, h2 ▸ hm⟩
  · obtain ⟨err, h1, h2⟩ := h
    exact ⟨err, h1, by rw [h2]; simp [hm]⟩

/-- C54: if one variant is named and keys are not checked by the enum itself (it is flattened into another
type), every key of a flattened variant is reported as not allowed beside the variant. -/
theorem c54_disallowed {e : EnumDef V} {site : Site V} (ha : e.Accepted site) (hg : e.FieldsFine)
    (hn : e.Infallible) (mode : Mode) (pre : Str) {l bs}
    (h : ItemsAll (EnumSeg e site pre) l bs) {i k sp x} (h1 : named bs = [(i, k, sp, .ok x)])
    (hu : e.unknownOk = false) {v : Variant V} (hv : v ∈ e.variants) (hs : v.isSkipped = false) {n sp'}
    (hn' : n ∈ v.spelled) (hk : n ≠ k) (hsp : lastSpan (seenKeys pre bs) n = some sp') :
    ∃ err, (enumFlat e site mode pre false l).1 = .err err ∧ ⟨sp', .notAllowedWith n k⟩ ∈ err.toList := by
  refine finishes_mem (c43_one ha hg hn mode pre false h h1) ?_
  have hf : v.isFlatten = true := by
    cases hf : v.isFlatten
    · simp [Variant.spelled, hf] at hn'
    · rfl
  have hany : e.anyFlat = true := List.any_eq_true.2 ⟨v, hv, by simp [hf, hs]⟩
  simp only [hu, hany, Bool.not_false, Bool.and_self, if_true, List.mem_append]
  refine .inl (List.mem_filterMap.2 ⟨n, List.mem_flatMap.2 ?_, by simp [hk, hsp]⟩)
  obtain ⟨j, hj⟩ := List.getElem?_of_mem hv
  exact ⟨(v, j), List.mem_zipIdx_iff_getElem?.2 hj, by simpa using hn'⟩

omit [Env] in
/-- A name in backquotes. -/
def quoted (s : Str) : Str := "`".toList ++ s ++ "`".toList

omit [Env] in
/-- How a variant is listed: each required field by the sorted set of its names; without required fields
by the name of the variant; a variant with a name by its primary name only. -/
def Variant.Listed (v : Variant V) (m : List (List Str)) : Prop :=
  (v.isFlatten = false → ∀ n, v.idents.head? = some n → m = [[quoted n]]) ∧
  (v.isFlatten = true → v.Keyless → m = [["fields from ".toList ++ quoted v.ident]]) ∧
  (v.isFlatten = true → ¬ v.Keyless → ∃ ks : List (List Str), m = ks.map (·.map quoted) ∧
    (∀ s, s ∈ ks ↔ ∃ f ∈ v.fields, f.Required ∧ f.idents ≠ [] ∧ s.Pairwise (fun a b => cmpStr a b = .lt) ∧
      ∀ n, n ∈ s ↔ n ∈ f.idents) ∧
    ks.Pairwise (fun a b => cmpList cmpStr a b = .lt))

omit [Env] in
/-- C54: the list names every variant that is not skipped, in order.  Missing for the full claim: the
aliases of variants that are not flattened, see `c54_alias_violated`. -/
theorem c54_listed_partial (e : EnumDef V) :
    ∃ ls : List (Variant V × List (List Str)), ls.map (·.1) = e.variants.filter (fun v => !v.isSkipped) ∧
      ls.map (·.2) = e.keyMsgs ∧ ∀ y ∈ ls, y.1.Listed y.2 := by
  have hq : "fields from `".toList = "fields from ".toList ++ "`".toList := rfl
  refine ⟨(e.variants.filter fun v => !v.isSkipped).map fun v => (v,
    if v.isFlatten then
      if v.fieldKey.isEmpty then [["fields from `".toList ++ v.ident ++ "`".toList]]
      else v.fieldKey.map (·.map quoted)
    else [(v.idents.take 1).map quoted]), ?_, ?_, ?_⟩
  · rw [List.map_map]
    exact List.map_id _
  · rw [List.map_map]
    rfl
  · intro y hy
    obtain ⟨v, _, rfl⟩ := List.mem_map.1 hy
    refine ⟨fun h n hn => ?_, fun h hk => ?_, fun h hk => ?_⟩
    · simp only [h, Bool.false_eq_true, if_false]
      cases hi : v.idents with
      | nil => rw [hi] at hn; cases hn
      | cons a t => rw [hi] at hn; cases hn; rfl
    · simp only [h, if_true, v.fieldKey_isEmpty.2 hk]
      rw [hq, List.append_assoc, List.append_assoc, quoted, List.append_assoc]
    · have hk' : ¬ v.fieldKey.isEmpty = true := fun h0 => hk (v.fieldKey_isEmpty.1 h0)
      simp only [h, if_true, hk']
      refine ⟨v.fieldKey, rfl, fun s => ?_, btSet_sorted (cmpList_lawful cmpStr_lawful) _⟩
      rw [v.mem_fieldKey]
      constructor
      · rintro ⟨f, h1, h2, h3, rfl⟩
        exact ⟨f, h1, h2, h3, btSet_sorted cmpStr_lawful _, fun n => mem_btSet cmpStr_eq⟩
      · rintro ⟨f, h1, h2, h3, h4, h5⟩
        exact ⟨f, h1, h2, h3, sorted_ext cmpStr_lawful h4 (btSet_sorted cmpStr_lawful _)
          fun n => (h5 n).trans (mem_btSet cmpStr_eq).symm⟩

/-! ## C63 -/

theorem checkMsgs_mem {allowed : List Str} {ks : List (Str × Span)} {key sp} (h : (key, sp) ∈ ks)
    (hk : key ∉ allowed) : ∃ c, ⟨sp, .unknownField key c⟩ ∈ checkMsgs true allowed ks := by
  have : ∃ c, ⟨sp, .unknownField key c⟩ ∈ unknownMsgs true allowed key sp := by
    simp only [unknownMsgs, hk, not_false_eq_true, and_self, if_true]
    exact ⟨_, List.mem_cons_self⟩
  obtain ⟨c, hc⟩ := this
  exact ⟨c, List.mem_flatMap.2 ⟨_, h, hc⟩⟩

/-- C63: beside the name of one variant, a key that the enum does not know is reported, if keys are
checked. -/
theorem c63_beside_variant {e : EnumDef V} {site : Site V} (ha : e.Accepted site) (hg : e.FieldsFine)
    (hn : e.Infallible) (mode : Mode) (pre : Str) {l bs} (h : ItemsAll (EnumSeg e site pre) l bs)
    {i k sp x} (h1 : named bs = [(i, k, sp, .ok x)]) (hu : e.unknownOk = false) {key sp'}
    (hk : (key, sp') ∈ allKeys pre bs) (hk' : key ∉ e.fieldNames) :
    ∃ err c, (enumFlat e site mode pre true l).1 = .err err ∧
      ⟨sp', .unknownField key c⟩ ∈ err.toList := by
  obtain ⟨c, hc⟩ := checkMsgs_mem hk hk'
  obtain ⟨err, h2, h3⟩ := finishes_mem (m := ⟨sp', .unknownField key c⟩)
    (c43_one ha hg hn mode pre true h h1) (by simp [hu, hc])
  exact ⟨err, c, h2, h3⟩

/-- C63: the same if no variant can be chosen. -/
theorem c63_no_variant {e : EnumDef V} {site : Site V} (ha : e.Accepted site) (hg : e.FieldsFine)
    (hn : e.Infallible) (mode : Mode) (pre : Str) {l bs} (h : ItemsAll (EnumSeg e site pre) l bs)
    (h0 : named bs = []) (h1 : ∀ i v, ¬ Applies e ((seenKeys pre bs).map (·.1)) i v)
    (h2 : ∀ (i : Nat) v, e.variants[i]? = some v → v.ByFields → ¬ v.Keyless) (h3 : e.default = none)
    (hu : e.unknownOk = false) {key sp'} (hk : (key, sp') ∈ allKeys pre bs) (hk' : key ∉ e.fieldNames) :
    ∃ err c, (enumFlat e site mode pre true l).1 = .err err ∧
      ⟨sp', .unknownField key c⟩ ∈ err.toList := by
  obtain ⟨c, hc⟩ := checkMsgs_mem hk hk'
  obtain ⟨err, h4, h5⟩ := c54_required ha hg hn mode pre true h h0 h1 h2 h3
  exact ⟨err, c, h4, by rw [h5]; simp [hu, hc]⟩

/-! ## Examples -/

/-- A variant of named fields of type `bool`; `fields` gives names and defaults. -/
def boolVariant (ident : String) (idents : List String) (flatten : Bool)
    (fields : List (String × Option Bool)) : Variant Bool where
  ident := ident.toList
  shape := .named
  fields := fields.map fun f => { plainField f.1.toList boolDict with default := f.2 }
  idents := idents.map (·.toList)
  flatten := some flatten
  transparent := none
  skip := none
  allowUnknown := none

omit [Env] in
/-- Enums of such variants meet the conditions of the theorems above. -/
theorem boolEnum_fine {e : EnumDef Bool}
    (h : ∀ v ∈ e.variants, ∃ a b c d, v = boolVariant a b c d) :
    e.Accepted .meta ∧ e.FieldsFine ∧ e.Infallible := by
  refine ⟨fun v hv _ => ?_, fun v hv _ => ?_, fun v hv _ ht => ?_⟩ <;> obtain ⟨a, b, c, d, rfl⟩ := h v hv
  · refine ⟨fun f hf hp => ?_, fun hs => by simp [boolVariant] at hs,
      fun ht => by simp [boolVariant, Variant.isTransparent] at ht, fun _ => rfl⟩
    simp only [boolVariant, List.mem_map] at hf
    obtain ⟨x, _, rfl⟩ := hf
    simp [plainField, Field.isParsable, Field.isContainer] at hp
  · refine ⟨fun f hf => ?_, fun _ f hf hp => ?_, fun hs => by simp [boolVariant] at hs⟩ <;>
      simp only [boolVariant, List.mem_map] at hf <;> obtain ⟨x, _, rfl⟩ := hf
    · exact boolDict_good
    · simp [plainField, Field.flatParsable, Field.isFlat, Field.isFlatten] at hp
  · simp [boolVariant, Variant.isTransparent] at ht

/-- `enum E { #[deluxe(alias = aa)] A { x: bool }, B {}, #[deluxe(flatten)] D { p: bool,
#[deluxe(default)] q: bool }, #[deluxe(flatten)] F { #[deluxe(default)] r: bool } }` -/
def demoEnum : EnumDef Bool where
  variants :=
    [boolVariant "A" ["a", "aa"] false [("x", none)], boolVariant "B" ["b"] false [],
      boolVariant "D" ["d"] true [("p", none), ("q", some false)],
      boolVariant "F" ["f"] true [("r", some true)]]
  default := none
  allowUnknown := none
  andThens := []

omit [Env] in
theorem demoEnum_fine : demoEnum.Accepted .meta ∧ demoEnum.FieldsFine ∧ demoEnum.Infallible := by
  refine boolEnum_fine fun v hv => ?_
  simp only [demoEnum, List.mem_cons, List.not_mem_nil, or_false] at hv
  rcases hv with rfl | rfl | rfl | rfl <;> exact ⟨_, _, _, _, rfl⟩

omit [Env] in
/-- Keys of variants differ if the computed keys do. -/
theorem distinct_of {e : EnumDef V}
    (h : (e.variants.filter fun v => v.isFlatten && !v.isSkipped).Pairwise
      fun v w => v.fieldKey ≠ w.fieldKey) : e.DistinctKeys := by
  have gen : ∀ (vs : List (Variant V)), (vs.filter fun v => v.isFlatten && !v.isSkipped).Pairwise
      (fun v w => v.fieldKey ≠ w.fieldKey) → ∀ (i j : Nat) v w, vs[i]? = some v → vs[j]? = some w →
        v.ByFields → w.ByFields → v.fieldKey = w.fieldKey → i = j := by
    intro vs
    induction vs with
    | nil => intro _ i j v w hi; simp at hi
    | cons a vs ih =>
      intro hp i j v w hi hj hv hw he
      have hp' : (vs.filter fun v => v.isFlatten && !v.isSkipped).Pairwise
          (fun v w => v.fieldKey ≠ w.fieldKey) := by
        rw [List.filter_cons] at hp
        split at hp
        · exact (List.pairwise_cons.1 hp).2
        · exact hp
      have head : ∀ (v w : Variant V) (j : Nat), a = v → vs[j]? = some w → v.ByFields → w.ByFields →
          v.fieldKey ≠ w.fieldKey := by
        intro v w j hav hj hv hw
        subst hav
        rw [List.filter_cons, if_pos (by simp [hv.1, hv.2])] at hp
        exact (List.pairwise_cons.1 hp).1 w
          (List.mem_filter.2 ⟨List.mem_of_getElem? hj, by simp [hw.1, hw.2]⟩)
      cases i with
      | zero =>
        cases j with
        | zero => rfl
        | succ j =>
          simp only [List.getElem?_cons_zero, Option.some.injEq, List.getElem?_cons_succ] at hi hj
          exact absurd he (head v w j hi hj hv hw)
      | succ i =>
        cases j with
        | zero =>
          simp only [List.getElem?_cons_zero, Option.some.injEq, List.getElem?_cons_succ] at hi hj
          exact absurd he.symm (head w v i hj hi hw hv)
        | succ j =>
          simp only [List.getElem?_cons_succ] at hi hj
          rw [ih hp' i j v w hi hj hv hw he]
  intro i j v w hi hj hv hw hs
  exact gen _ h i j v w hi hj hv hw ((v.sameKey_iff w).1 hs)

omit [Env] in
theorem demoEnum_distinct : demoEnum.DistinctKeys := distinct_of (by decide)

/-- The tokens `aa(x = true), p = false`. -/
def demoEnumToks : List Tok :=
  [.ident "aa".toList 1, .group .paren [.ident "x".toList 2, .punct '=' false 3, .ident "true".toList 4] 5 6,
    .punct ',' false 7, .ident "p".toList 8, .punct '=' false 9, .ident "false".toList 10]

/-- The items of these tokens. -/
theorem demoEnum_items : ItemsAll (EnumSeg demoEnum .meta []) [⟨demoEnumToks, 11, none⟩]
    [.variant 0 "aa".toList 1 (.ok [true]), .other "p".toList 8] := by
  refine .cons (bs := [_, _]) (.cons (v := [.ident "aa".toList 1, .group .paren _ 5 6]) ⟨_, _, rfl⟩ ?_
    (.last (by simp) ?_)) .nil
  · exact .variant (segs := ["aa".toList]) (vt := [.group .paren _ 5 6])
      (.mk (pt := [.ident "aa".toList 1]) (.plain (.one _ _)) (by simp [StartsColon2]))
      ((selected_some _ _ _ _ _ _).1 rfl) (by simp [NoComma, Comma]) (fun u => ⟨_, rfl⟩)
  · exact .other (segs := ["p".toList]) (vt := [.punct '=' false 9, .ident "false".toList 10])
      (.mk (pt := [.ident "p".toList 8]) (.plain (.one _ _)) (by simp [StartsColon2]))
      ((selected_none _ _ _).1 rfl) (by simp [NoComma, Comma])

/-- C43: the hypotheses of `c43_one` hold for it. -/
example : named ([.variant 0 "aa".toList 1 (.ok [true]), .other "p".toList 8] : List (EItem Bool)) =
    [(0, "aa".toList, 1, .ok [true])] := rfl

/-- C43, C54: beside the variant the key of a flattened variant is known, so nothing is reported if keys
are checked. -/
example : (enumFlat demoEnum .meta (.named 0) [] true [⟨demoEnumToks, 11, none⟩]).1 = .ok (0, [true]) :=
  (c43_one_ok demoEnum_fine.1 demoEnum_fine.2.1 demoEnum_fine.2.2 (.named 0) [] demoEnum_items rfl _).2
    ⟨fun _ => by decide, _, rfl, rfl⟩

/-- C54: it is reported if they are not. -/
example : ∃ e, (enumFlat demoEnum .meta (.named 0) [] false [⟨demoEnumToks, 11, none⟩]).1 = .err e ∧
    ⟨8, .notAllowedWith "p".toList "aa".toList⟩ ∈ e.toList :=
  c54_disallowed demoEnum_fine.1 demoEnum_fine.2.1 demoEnum_fine.2.2 (.named 0) [] demoEnum_items rfl rfl
    (v := boolVariant "D" ["d"] true [("p", none), ("q", some false)]) (by simp [demoEnum]) rfl (by decide)
    (by decide) rfl

/-- The items of the tokens `b, a`: the value of the second is not there. -/
theorem demoEnum_items_two : ItemsAll (EnumSeg demoEnum .meta [])
    [⟨[.ident "b".toList 1, .punct ',' false 2, .ident "a".toList 3], 4, none⟩]
    [.variant 1 "b".toList 1 (.ok []),
      .variant 0 "a".toList 3 (.error (missingFieldError "`x`".toList 3))] := by
  refine .cons (bs := [_, _]) (.cons (v := [.ident "b".toList 1]) ⟨_, _, rfl⟩ ?_ (.last (by simp) ?_)) .nil
  · exact .variant (segs := ["b".toList]) (vt := [])
      (.mk (pt := [.ident "b".toList 1]) (.plain (.one _ _)) (by simp [StartsColon2]))
      ((selected_some _ _ _ _ _ _).1 rfl) (by simp [NoComma]) (fun u => ⟨_, rfl⟩)
  · exact .variant (segs := ["a".toList]) (vt := [])
      (.mk (pt := [.ident "a".toList 3]) (.plain (.one _ _)) (by simp [StartsColon2]))
      ((selected_some _ _ _ _ _ _).1 rfl) (by simp [NoComma]) (fun u => ⟨[], u, by simp [NoComma], rfl⟩)

/-- C43: both variants are in the message. -/
example : ∃ e, (enumFlat demoEnum .meta (.named 0) [] true
      [⟨[.ident "b".toList 1, .punct ',' false 2, .ident "a".toList 3], 4, none⟩]).1 = .err e ∧
    ⟨3, .onlyOneVariant "b".toList "a".toList⟩ ∈ e.toList :=
  c43_two demoEnum_fine.1 demoEnum_fine.2.1 demoEnum_fine.2.2 (.named 0) [] true demoEnum_items_two
    (i := 1) (j := 0) rfl List.mem_cons_self

/-- C45: `p` selects `D`, `r` or nothing selects `F`; an unknown key alone lists all variants. -/
example : (enumFlat demoEnum .meta (.named 0) [] true [⟨[.ident "p".toList 1], 2, none⟩]).1 =
      .ok (2, [true, false]) ∧
    (enumFlat demoEnum .meta (.named 0) [] true [⟨[.ident "r".toList 1], 2, none⟩]).1 = .ok (3, [true]) ∧
    (enumFlat demoEnum .meta (.named 0) [] true [⟨[], 2, none⟩]).1 = .ok (3, [true]) ∧
    ∃ e c, (enumFlat demoEnum .meta (.named 0) [] true [⟨[.ident "z".toList 1], 2, none⟩]).1 = .err e ∧
      e.toList = [⟨1, .unknownField "z".toList c⟩, ⟨0, .expectedOneOf
        [[["`a`".toList]], [["`b`".toList]], [["`p`".toList]], [["fields from `F`".toList]]]⟩] :=
  ⟨rfl, rfl, rfl, _, _, rfl, rfl⟩

omit [Env] in
/-- C45: the hypotheses of `c45_unique` hold for the key `p`. -/
example : Applies demoEnum ["p".toList] 2 (boolVariant "D" ["d"] true [("p", none), ("q", some false)]) := by
  refine ⟨rfl, ⟨rfl, rfl⟩, fun h => ?_, fun f hf hr _ => ?_⟩
  · have := h _ List.mem_cons_self ⟨rfl, rfl, rfl⟩
    cases this
  · simp only [boolVariant, List.map_cons, List.map_nil, List.mem_cons, List.not_mem_nil, or_false] at hf
    rcases hf with rfl | rfl
    · exact ⟨_, List.mem_cons_self, List.mem_cons_self⟩
    · exact absurd hr.2.2 (by simp)

/-- `enum E { #[deluxe(flatten)] D { a: bool }, #[deluxe(flatten)] E { a: bool, b: bool } }` -/
def overlapping : EnumDef Bool where
  variants := [boolVariant "D" ["d"] true [("a", none)], boolVariant "E" ["e"] true [("a", none), ("b", none)]]
  default := none
  allowUnknown := none
  andThens := []

/-- C45 is violated: the keys of these two variants differ, so the definition is accepted, but on `a, b`
both apply.  `D` is taken, which does not know `b`: the input is rejected although it is exactly the
fields of `E`. -/
theorem c45_ambiguous_violated :
    overlapping.Accepted .meta ∧ overlapping.FieldsFine ∧ overlapping.Infallible ∧
      overlapping.DistinctKeys ∧
    (∃ v w, Applies overlapping ["a".toList, "b".toList] 0 v ∧
      Applies overlapping ["a".toList, "b".toList] 1 w ∧
      (namedFlat (w.data .meta 0) (Field.fieldNames w.fields) (.named 0) [] true
        [⟨[.ident "a".toList 1, .punct ',' false 2, .ident "b".toList 3], 4, none⟩]).1 =
          .ok [true, true]) ∧
    ∃ e c, (enumFlat overlapping .meta (.named 0) [] true
        [⟨[.ident "a".toList 1, .punct ',' false 2, .ident "b".toList 3], 4, none⟩]).1 = .err e ∧
      e.toList = [⟨3, .unknownField "b".toList c⟩] := by
  have hf : overlapping.Accepted .meta ∧ overlapping.FieldsFine ∧ overlapping.Infallible := by
    refine boolEnum_fine fun v hv => ?_
    simp only [overlapping, List.mem_cons, List.not_mem_nil, or_false] at hv
    rcases hv with rfl | rfl <;> exact ⟨_, _, _, _, rfl⟩
  refine ⟨hf.1, hf.2.1, hf.2.2, distinct_of (by decide), ⟨_, _, ⟨rfl, ⟨rfl, rfl⟩, fun h => ?_, fun f hf hr _ => ?_⟩,
    ⟨rfl, ⟨rfl, rfl⟩, fun h => ?_, fun f hf hr _ => ?_⟩, rfl⟩, _, _, rfl, rfl⟩
  · have := h _ List.mem_cons_self ⟨rfl, rfl, rfl⟩
    cases this
  · simp only [boolVariant, List.map_cons, List.map_nil, List.mem_cons, List.not_mem_nil, or_false] at hf
    subst hf
    exact ⟨_, List.mem_cons_self, List.mem_cons_self⟩
  · have := h _ List.mem_cons_self ⟨rfl, rfl, rfl⟩
    cases this
  · simp only [boolVariant, List.map_cons, List.map_nil, List.mem_cons, List.not_mem_nil, or_false] at hf
    rcases hf with rfl | rfl
    · exact ⟨_, List.mem_cons_self, List.mem_cons_self⟩
    · exact ⟨_, List.mem_cons_self, List.mem_cons_of_mem _ List.mem_cons_self⟩

omit [Env] in
/-- C54 does not hold for aliases: `aa` names the variant `A` but is not listed. -/
theorem c54_alias_violated :
    (∃ v, Selects demoEnum.variants [] "aa".toList "aa".toList v 0) ∧
      ∀ vs ∈ demoEnum.keyMsgs, ∀ ks ∈ vs, quoted "aa".toList ∉ ks :=
  ⟨⟨_, (selected_some _ _ _ _ _ _).1 rfl⟩, by decide⟩

/-- `#[deluxe(default)] enum E { #[default] A }`, with names `a`. -/
def defaulted : EnumDef Bool where
  variants := [boolVariant "A" ["a"] false []]
  default := some (0, [])
  allowUnknown := none
  andThens := []

/-- C63 is violated if the enum has a default: any input without the name of a variant, whatever its keys,
is taken for the default. -/
theorem c63_default_violated : "zz".toList ∉ defaulted.fieldNames ∧
    (enumFlat defaulted .meta (.named 0) [] true [⟨[.ident "zz".toList 1], 2, none⟩]).1 = .ok (0, []) ∧
    (enumFlat defaulted .meta (.named 0) [] true
      [⟨[.ident "a".toList 1, .punct ',' false 2, .ident "zz".toList 3], 4, none⟩]).1 ≠ .ok (0, []) :=
  ⟨by decide, rfl, by intro h; cases h⟩

/-! ## C64 -/

/-- C64: an enum that is told not to check keys never reports an unknown key, if a variant is named or
none applies. -/
theorem c64_named_partial {e : EnumDef V} {site : Site V} (ha : e.Accepted site) (hg : e.FieldsFine)
    (hn : e.Infallible) (mode : Mode) (pre : Str) {l bs}
    (h : ItemsAll (EnumSeg e site pre) l bs) {i k sp x} (h1 : named bs = [(i, k, sp, .ok x)])
    (hk : ∀ v ∈ e.variants, ∀ n ∈ v.spelled, n ≠ k → n ∉ (seenKeys pre bs).map (·.1)) :
    Finishes e (i, x) [] (enumFlat e site mode pre false l).1 := by
  have := c43_one ha hg hn mode pre false h h1
  have h2 : otherMsgs e none k (fun n => if n = k then none else lastSpan (seenKeys pre bs) n) = [] := by
    simp only [otherMsgs, List.filterMap_eq_nil_iff, List.mem_flatMap]
    rintro n ⟨⟨v, j⟩, hj, hn⟩
    simp only [Option.some_ne_none, if_false] at hn
    have hv : v ∈ e.variants := List.mem_of_getElem? (List.mem_zipIdx_iff_getElem?.1 hj)
    by_cases hnk : n = k
    · simp [hnk]
    · have h3 := hk v hv n hn hnk
      rw [← lastSpan_isSome] at h3
      simp only [hnk, if_false]
      cases hl : lastSpan (seenKeys pre bs) n with
      | none => rfl
      | some _ => simp [hl] at h3
  rw [h2] at this
  have h3 : checkMsgs (!e.unknownOk && false) e.fieldNames (allKeys pre bs) = [] := by
    rw [checkMsgs_nil]; simp
  rw [h3] at this
  simpa using this

/-- The field `#[deluxe(flatten)] e: E` of a structure, with `E` as above; its value tells whether the
variant is `D`. -/
def flattenedEnum : Field Bool :=
  { plainField "e".toList boolDict with
    idents := []
    flatten := some ⟨true, none⟩
    flatNamed := ⟨demoEnum.flatNamed.acceptsAll, demoEnum.flatNamed.fieldNames,
      fun m p v => (demoEnum.flatNamed.parse m p v).mapRes (·.map fun y => y.1 == 2)⟩ }

/-- C64 is violated: a flattened variant checks all keys even if the enum is told not to.  So the enum,
flattened into `struct S { x: bool, #[deluxe(flatten)] e: E }`, rejects the key `x` of the structure
beside the fields of `D`. -/
theorem c64_flattened_violated (allowed : List Str) :
    ∃ e c, (flattenedEnum.flatCall [] 0 allowed
        [⟨[.ident "x".toList 1, .punct ',' false 2, .ident "p".toList 3], 4, none⟩]).1 = .err e ∧
      e.toList = [⟨1, .unknownField "x".toList c⟩] :=
  ⟨_, _, rfl, rfl⟩

/-- Beside the variant `B` it does not. -/
example (allowed : List Str) : (flattenedEnum.flatCall [] 0 allowed
    [⟨[.ident "x".toList 1, .punct ',' false 2, .ident "b".toList 3], 4, none⟩]).1 = .ok false := rfl

end

end Deluxe
