import Verif.Lemmas.LocatedDerive
/-!
# Messages point into the input: derived enums, and the attribute derives
-/
namespace Deluxe
variable {P : Span → Prop} {V : Type}

/-- The spans of all keys lie in `P`. -/
def PathMap.In (P : Span → Prop) (m : PathMap) : Prop := ∀ x ∈ m, P x.2

theorem PathMap.In.get {m : PathMap} (h : m.In P) {k : Str} {sp : Span} (hk : m.get k = some sp) : P sp := by
  induction m with
  | nil => cases hk
  | cons x rest ih =>
    obtain ⟨k', sp'⟩ := x
    simp only [PathMap.get] at hk
    split at hk
    · cases hk; exact h _ List.mem_cons_self
    · exact ih (fun y hy => h y (List.mem_cons_of_mem _ hy)) hk

theorem PathMap.In.remove {m : PathMap} (h : m.In P) (k : Str) : (m.remove k).In P :=
  fun x hx => h x (List.mem_filter.1 hx).1

theorem PathMap.In.insert {m : PathMap} (h : m.In P) (k : Str) {sp : Span} (hs : P sp) : (m.insert k sp).In P := by
  intro x hx
  rcases List.mem_cons.1 hx with rfl | hx
  · exact hs
  · exact h.remove k x hx

theorem PathMap.In.removePaths {m : PathMap} (h : m.In P) (keys : List (Str × List Str)) :
    (removePaths m keys).In P := by
  simp only [Deluxe.removePaths]
  induction keys generalizing m with
  | nil => exact h
  | cons pk rest ih =>
    refine ih ?_
    dsimp only
    generalize pk.2 = l
    induction l generalizing m with
    | nil => exact h
    | cons x l ih2 => exact ih2 (h.remove _)

theorem disallowPaths_in {m : PathMap} (h : m.In P) (keys : List (Str × List Str)) (cur : Str) {errs : Errors}
    (he : errs.In P) : (disallowPaths m keys cur errs).In P := by
  simp only [disallowPaths]
  induction keys generalizing errs with
  | nil => exact he
  | cons pk rest ih =>
    refine ih ?_
    dsimp only
    generalize pk.2 = l
    induction l generalizing errs with
    | nil => exact he
    | cons x l ih2 =>
      refine ih2 ?_
      dsimp only
      split
      · rename_i sp hsp; exact he.push _ (h.get hsp)
      · exact he

/-- The variables of the loop. -/
abbrev EnumStIn (P : Span → Prop) (a : Acc (EnumSt V)) : Prop := a.errs.In P ∧ a.val.paths.In P

section
variable [Env] [A : Area P]

omit [Env] A in
theorem variantData_in {v : Variant V} (h : ∀ f ∈ v.fields, f.In P) (site : Site V) {sp : Span} (hs : P sp) :
    (v.data site sp).In P := ⟨h, hs⟩

theorem variantInline_loc {v : Variant V} (h : ∀ f ∈ v.fields, f.In P) (site : Site V) (pre : Str) {sp : Span}
    (hs : P sp) (m : Mode) (hm : m.In P) : LocL P (v.inline site pre sp m) := by
  simp only [Variant.inline]
  split
  · exact namedFlat_loc (d := v.data site sp) h _ m hm _ _
  · exact unnamedFlat_loc (variantData_in h site hs) m hm 0
  · exact fun l hl => ⟨trivial, hl⟩

theorem variantFlag_in {v : Variant V} (h : ∀ f ∈ v.fields, f.In P) (site : Site V) (pre : Str) {sp : Span}
    (hs : P sp) : (v.flag site pre sp).In P fun _ => True := by
  simp only [Variant.flag]
  split
  · exact parseEmpty_in hs (single_loc (variantInline_loc h site pre hs _ (Mode.in_named hs)))
  · split
    · exact parseEmpty_in hs (single_loc (variantInline_loc h site pre hs _ Mode.in_unnamed))
    · exact SynErr.in_new _ hs
  · trivial

theorem variantItem_loc {v : Variant V} (h : ∀ f ∈ v.fields, f.In P) (site : Site V) (pre p : Str) {sp : Span}
    (hs : P sp) : Loc P (v.item site pre p sp) := by
  simp only [Variant.item]
  split
  · split
    · rename_i f k hk
      have hf := h f (List.fst_mem_of_mem_zipIdx (List.mem_of_find?_eq_some hk))
      refine mapRes_keeps (fun r hr => ?_) (hf.item.named p sp hs)
      cases r with
      | err e => exact hr
      | panic => trivial
      | ok x => exact unwrapAll_in _
    · exact Keeps.panic
  · exact parseNamedWith_loc
      (parseDelimitedWith_loc _ (single_loc (variantInline_loc h site pre hs _ (Mode.in_named hs))))
      (variantInline_loc h site pre hs _ (Mode.in_named hs)) (variantFlag_in h site pre hs)

theorem enumStep_keeps {e : EnumDef V} (h : ∀ v ∈ e.variants, ∀ f ∈ v.fields, f.In P) (site : Site V) (pre p : Str)
    {sp : Span} (hsp : P sp) :
    Keeps P (LoopIn P (EnumStIn P)) (fun _ => True) (enumStep e site pre p sp) := by
  intro st hs
  obtain ⟨acc, s⟩ := st
  have hpaths : PathMap.In P (match stripPrefix pre p with
      | some k => if e.anyFlat then acc.val.paths.insert k sp else acc.val.paths
      | none => acc.val.paths) := by
    split
    · split
      · exact hs.1.2.insert _ hsp
      · exact hs.1.2
    · exact hs.1.2
  simp only [enumStep]
  split
  · rename_i k v i hk
    have hv : ∀ f ∈ v.fields, f.In P := by
      obtain ⟨k', _, hk'⟩ := Option.bind_eq_some_iff.1 hk
      obtain ⟨x, hx, hx'⟩ := Option.map_eq_some_iff.1 hk'
      cases hx'
      exact h v (List.fst_mem_of_mem_zipIdx (List.mem_of_find?_eq_some hx))
    have herrs : Errors.In P (match acc.val.key with
      | some key => onlyOneVariant sp pre key k acc.errs
      | none => acc.errs) := by
      split
      · exact hs.1.1.push _ hsp
      · exact hs.1.1
    obtain ⟨h1, h2⟩ := variantItem_loc hv site pre p hsp s hs.2
    split
    · rename_i heq; rw [heq] at h2; exact ⟨trivial, ⟨herrs, hpaths⟩, h2⟩
    · rename_i heq; rw [heq] at h1 h2; exact ⟨trivial, ⟨herrs.pushSyn h1, hpaths⟩, h2.skip⟩
    · rename_i heq; rw [heq] at h2; exact ⟨trivial, hs.1, h2⟩
  · exact ⟨trivial, ⟨hs.1.1, hpaths⟩, hs.2.skip⟩

theorem checkKeys_in (allowed : List Str) {errs : Errors} (he : errs.In P) {l : List Stream} (hl : StreamsIn P l) :
    (checkKeys allowed errs l).1.In P (Errors.In P) ∧ StreamsIn P (checkKeys allowed errs l).2 := by
  have h := parseStruct_keeps (K := fun a : Acc Unit => a.errs.In P) (func := checkStep allowed)
    (fun p sp hsp st hs => ⟨trivial, unknown_in hsp allowed hs.1, hs.2.skip⟩) (⟨(), errs⟩, l) ⟨he, hl⟩
  simp only [checkKeys]
  cases hX : parseStruct (checkStep allowed) ((⟨(), errs⟩ : Acc Unit), l) with
  | mk r st =>
    obtain ⟨acc, l'⟩ := st
    rw [hX] at h
    cases r with
    | panic => exact ⟨trivial, h.2.2⟩
    | ok a => exact ⟨h.2.1, h.2.2⟩
    | err e => exact ⟨h.2.1, h.2.2⟩

theorem validatePass_in (e : EnumDef V) (validate : Bool) {errs : Errors} (he : errs.In P) {l : List Stream}
    (hl : StreamsIn P l) :
    (validatePass e validate errs l).1.In P (Errors.In P) ∧ StreamsIn P (validatePass e validate errs l).2 := by
  simp only [validatePass]
  split
  · exact checkKeys_in _ he hl
  · exact ⟨he, hl⟩

omit [Env] A in
theorem variantRequired_in {sp : Span} (hs : P sp) (pre : Str) (names : List (List (List Str))) {errs : Errors}
    (he : errs.In P) : (variantRequired sp pre names errs).In P := he.push _ hs

theorem emptyCheck_in (e : EnumDef V) (v : Variant V) (pre : Str) {sp : Span} (hs : P sp) {errs : Errors}
    (he : errs.In P) {l : List Stream} (hl : StreamsIn P l) :
    (emptyCheck e v pre sp errs l).In P (Errors.In P) := by
  obtain ⟨h1, _⟩ := checkKeys_in (Field.fieldNames v.fields) he hl.fork
  simp only [emptyCheck]
  split
  · exact he.bail
  · split
    · rename_i heq
      rw [heq] at h1
      split
      · exact h1
      · exact (variantRequired_in hs pre _ h1).bail
    · rename_i heq; rw [heq] at h1; exact h1
    · trivial

theorem flatBlock_in {e : EnumDef V} (site : Site V) (pre : Str) {sp : Span} (hs : P sp) {paths : PathMap}
    (hp : paths.In P) {v : Variant V} (hv : ∀ f ∈ v.fields, f.In P) (i : Nat) (empty : Bool) {errs : Errors}
    (he : errs.In P) {l : List Stream} (hl : StreamsIn P l) :
    (flatBlock e site pre sp paths v i empty errs l).1.In P (PassIn P) ∧
      StreamsIn P (flatBlock e site pre sp paths v i empty errs l).2 := by
  have h0 : Res.In P (Errors.In P) (if (empty && !v.allowUnknown.getD false && !v.acceptsAll) = true
      then emptyCheck e v pre sp errs l else .ok errs) := by
    split
    · exact emptyCheck_in e v pre hs he hl
    · exact he
  have hfin : ∀ errs : Errors, errs.In P → Errors.In P
      (if (e.unknownOk || v.allowUnknown.getD false || !v.acceptsAll) = true then errs
      else disallowPaths (removePaths paths v.flatNames) (otherFlatNames e (some i)) v.ident errs) := by
    intro errs herrs
    split
    · exact herrs
    · exact disallowPaths_in (hp.removePaths _) _ _ herrs
  simp only [flatBlock]
  generalize (if (empty && !v.allowUnknown.getD false && !v.acceptsAll) = true
      then emptyCheck e v pre sp errs l else .ok errs) = r0 at h0
  cases r0 with
  | panic => exact ⟨trivial, hl⟩
  | err x => exact ⟨h0, hl⟩
  | ok errs' =>
    have h := namedFlat_loc (d := v.data site sp) hv (Field.fieldNames v.fields) (.named sp) (Mode.in_named hs) pre
      (!v.acceptsAll && !(empty && !v.allowUnknown.getD false)) l hl
    dsimp only
    generalize namedFlat (v.data site sp) (Field.fieldNames v.fields) (.named sp) pre
      (!v.acceptsAll && !(empty && !v.allowUnknown.getD false)) l = X at h
    obtain ⟨r, l1⟩ := X
    cases r with
    | panic => exact ⟨trivial, h.2⟩
    | ok x => exact ⟨hfin _ h0, h.2⟩
    | err x => exact ⟨hfin _ (Errors.In.pushSyn h0 h.1), h.2⟩

omit [Env] A in
theorem btInsert_mem {κ α : Type} {cmp : κ → κ → Ordering} {k : κ} {a : α} {l : List (κ × α)} {x : κ × α}
    (h : x ∈ btInsert cmp k a l) : x.2 = a ∨ ∃ y ∈ l, x.2 = y.2 := by
  induction l with
  | nil =>
    simp only [btInsert, List.mem_singleton] at h
    exact .inl (by rw [h])
  | cons y rest ih =>
    obtain ⟨k', a'⟩ := y
    simp only [btInsert] at h
    split at h
    · rcases List.mem_cons.1 h with rfl | h
      · exact .inl rfl
      · exact .inr ⟨x, h, rfl⟩
    · rcases List.mem_cons.1 h with rfl | h
      · exact .inl rfl
      · exact .inr ⟨x, List.mem_cons_of_mem _ h, rfl⟩
    · rcases List.mem_cons.1 h with rfl | h
      · exact .inr ⟨_, List.mem_cons_self, rfl⟩
      · rcases ih h with h | ⟨y, hy, h⟩
        · exact .inl h
        · exact .inr ⟨y, List.mem_cons_of_mem _ hy, h⟩

omit [Env] A in
theorem btMap_values {κ α : Type} {cmp : κ → κ → Ordering} {l : List (κ × α)} {x : κ × α} (h : x ∈ btMap cmp l) :
    ∃ y ∈ l, x.2 = y.2 := by
  have key : ∀ (l m : List (κ × α)), x ∈ l.foldl (fun m x => btInsert cmp x.1 x.2 m) m →
      (∃ y ∈ l, x.2 = y.2) ∨ ∃ y ∈ m, x.2 = y.2 := by
    intro l
    induction l with
    | nil => exact fun m h => .inr ⟨x, h, rfl⟩
    | cons y l ih =>
      intro m h
      rcases ih _ h with ⟨z, hz, h⟩ | ⟨z, hz, h⟩
      · exact .inl ⟨z, List.mem_cons_of_mem _ hz, h⟩
      · rcases btInsert_mem hz with h' | ⟨w, hw, h'⟩
        · exact .inl ⟨y, List.mem_cons_self, h.trans h'⟩
        · exact .inr ⟨w, hw, h.trans h'⟩
  rcases key l [] h with h | ⟨y, hy, _⟩
  · exact h
  · cases hy

omit [Env] A in
theorem flatMatches_in {e : EnumDef V} (h : ∀ v ∈ e.variants, ∀ f ∈ v.fields, f.In P) {k : VKey} {v : Variant V}
    {i : Nat} (hx : (k, v, i) ∈ e.flatMatches) : ∀ f ∈ v.fields, f.In P := by
  obtain ⟨y, hy, hxy⟩ := btMap_values hx
  obtain ⟨z, hz, rfl⟩ := List.mem_map.1 hy
  dsimp only at hxy
  have hz := (List.mem_filter.1 hz).1
  rw [← hxy] at hz
  exact h v (List.fst_mem_of_mem_zipIdx hz)

theorem pick_in {e : EnumDef V} (h : ∀ v ∈ e.variants, ∀ f ∈ v.fields, f.In P) (site : Site V) (pre : Str) {sp : Span}
    (hs : P sp) (validate : Bool) {st : EnumSt V} (hp : st.paths.In P) {errs : Errors} (he : errs.In P)
    {l : List Stream} (hl : StreamsIn P l) :
    (pick e site pre sp validate st errs l).1.In P (PassIn P) ∧
      StreamsIn P (pick e site pre sp validate st errs l).2 := by
  simp only [pick]
  split
  · split
    · exact ⟨trivial, hl⟩
    · rename_i key _
      have he' : Errors.In P (if (e.anyFlat && !e.unknownOk && !validate) = true then
          disallowPaths (st.paths.remove key) (otherFlatNames e none) key errs else errs) := by
        split
        · exact disallowPaths_in (hp.remove _) _ _ he
        · exact he
      generalize (if (e.anyFlat && !e.unknownOk && !validate) = true then
          disallowPaths (st.paths.remove key) (otherFlatNames e none) key errs else errs) = errs' at he'
      obtain ⟨g1, g2⟩ := validatePass_in e validate he' hl
      split
      · rename_i heq; rw [heq] at g1 g2; exact ⟨g1, g2⟩
      · rename_i heq; rw [heq] at g1 g2; exact ⟨g1, g2⟩
      · rename_i heq; rw [heq] at g2; exact ⟨trivial, g2⟩
  · exact ⟨he, hl⟩
  · simp only [pickFlat]
    split
    · rename_i hx
      exact flatBlock_in site pre hs hp (flatMatches_in h (List.mem_of_find?_eq_some hx)) _ _ he hl
    · split
      · rename_i hx
        exact flatBlock_in site pre hs hp (flatMatches_in h (List.mem_of_find?_eq_some hx)) _ _ he hl
      · split
        · exact ⟨he, hl⟩
        · obtain ⟨g1, g2⟩ := validatePass_in e validate he hl
          split
          · rename_i heq; rw [heq] at g1 g2; exact ⟨variantRequired_in hs pre _ g1, g2⟩
          · rename_i heq; rw [heq] at g1 g2; exact ⟨g1, g2⟩
          · rename_i heq; rw [heq] at g2; exact ⟨trivial, g2⟩

omit [Env] A in
theorem enumAndThens_in {fs : List (EnumVal V → Except SynErr (EnumVal V))}
    (hf : ∀ g ∈ fs, ∀ v e, g v = .error e → e.In P) (x : Option (EnumVal V)) {errs : Errors} (he : errs.In P) :
    PassIn P (enumAndThens fs x errs) := by
  simp only [enumAndThens]
  induction fs generalizing x errs with
  | nil => exact he
  | cons f fs ih =>
    rw [List.foldl_cons]
    have ih := fun x errs he => ih (fun g hg => hf g (List.mem_cons_of_mem _ hg)) x (errs := errs) he
    cases x with
    | none => exact ih none errs he
    | some v =>
      dsimp only
      cases hv : f v with
      | ok v' => exact ih (some v') errs he
      | error e => exact ih none _ (he.pushSyn (hf f List.mem_cons_self v e hv))

theorem enumFlat_loc {e : EnumDef V} (h : e.In P) (site : Site V) (m : Mode) (hm : m.In P) (pre : Str)
    (validate : Bool) : LocL P (enumFlat e site m pre validate) := by
  intro l hl
  have hl0 : StreamsIn P (if (e.anyFlat || !e.unknownOk) = true then forkInputs l else l) := by
    split
    · exact hl.fork
    · exact hl
  obtain ⟨h1, h2⟩ := parseStruct_keeps (fun p sp hsp => enumStep_keeps h.fields site pre p hsp)
    ((⟨⟨none, .none, []⟩, Errors.new⟩ : Acc (EnumSt V)), if (e.anyFlat || !e.unknownOk) = true then forkInputs l else l)
    ⟨⟨Errors.in_new, fun _ h => by cases h⟩, hl0⟩
  simp only [enumFlat]
  generalize hX : parseStruct (enumStep e site pre) ((⟨⟨none, .none, []⟩, Errors.new⟩ : Acc (EnumSt V)),
    if (e.anyFlat || !e.unknownOk) = true then forkInputs l else l) = X at h1 h2
  obtain ⟨r, acc, l1⟩ := X
  have hl1 : StreamsIn P (if (e.anyFlat || !e.unknownOk) = true then l else l1) := by
    split
    · exact hl
    · exact h2.2
  have hsp : P (m.toFullSpan l) := hm.full hl
  dsimp only
  generalize (if (e.anyFlat || !e.unknownOk) = true then l else l1) = l2 at hl1
  have key : ∀ (errs : Errors) (Y : Picked V × List Stream), errs.In P →
      pick e site pre (m.toFullSpan l) validate acc.val errs l2 = Y →
      Res.In P (fun _ : EnumVal V => True) (match Y with
        | (.ok (value, errs), l2) =>
          let (value, errs) := enumAndThens e.andThens value.intoOption errs
          (match errs.check with
            | .ok () =>
              match value with
              | some x => .ok x
              | none => .panic
            | .err x => .err x
            | .panic => .panic, skipAll l2)
        | (.err x, l2) => (.err x, l2)
        | (.panic, l2) => (.panic, l2) : Res (EnumVal V) × List Stream).1 ∧ StreamsIn P (match Y with
        | (.ok (value, errs), l2) =>
          let (value, errs) := enumAndThens e.andThens value.intoOption errs
          (match errs.check with
            | .ok () =>
              match value with
              | some x => .ok x
              | none => .panic
            | .err x => .err x
            | .panic => .panic, skipAll l2)
        | (.err x, l2) => (.err x, l2)
        | (.panic, l2) => (.panic, l2) : Res (EnumVal V) × List Stream).2 := by
    intro errs Y herrs hY
    obtain ⟨g1, g2⟩ := pick_in h.fields site pre hsp validate h2.1.2 herrs hl1
    rw [hY] at g1 g2
    obtain ⟨rY, lY⟩ := Y
    cases rY with
    | panic => exact ⟨trivial, g2⟩
    | err x => exact ⟨g1, g2⟩
    | ok ve =>
      obtain ⟨value, errs'⟩ := ve
      have g3 := (enumAndThens_in h.andThen value.intoOption (errs := errs') g1).check
      refine ⟨?_, g2.skipAll⟩
      dsimp only
      split
      · split <;> trivial
      · rename_i heq; rw [heq] at g3; exact g3
      · trivial
  cases r with
  | panic => exact ⟨trivial, hl1⟩
  | ok a => exact key _ _ h2.1.1 rfl
  | err x => exact key _ _ (Errors.In.pushSyn h2.1.1 h1) rfl

theorem EnumDef.In.flatNamed {e : EnumDef V} (h : e.In P) : e.flatNamed.In P :=
  ⟨fun m _ _ hm => enumFlat_loc h _ m hm _ _⟩

theorem EnumDef.In.flatUnnamed {e : EnumDef V} (h : e.In P) : e.flatUnnamed.In P :=
  ⟨fun m _ hm => enumFlat_loc h _ m hm _ _⟩

theorem EnumDef.In.dict {e : EnumDef V} (h : e.In P) : e.dict.In P := by
  have hi : ∀ m : Mode, m.In P → LocL P (e.flatNamed.parse m [] (!e.flatNamed.acceptsAll)) :=
    fun m hm => h.flatNamed.parse m _ _ hm
  refine Dict.mk'_in_all (fun m hm s hs => parseDelimitedMetaItem_loc .brace _ (hi _ (hm.toNamed hs)) s hs) hi
    (fun sp hs => parseEmptyMetaItem_in hs (hi _ (Mode.in_named hs))) (fun n sp hs => ?_)
  split
  · trivial
  · exact SynErr.in_new _ hs

/-! ## The attribute derives -/

theorem StructDef.In.attrBody {d : StructDef V} (h : d.In P) (site : Site V) (m : Mode) (hm : m.In P) :
    LocL P (d.attrBody site m) := by
  simp only [StructDef.attrBody]
  split
  · split
    · rename_i f k hk
      have hf := h.fields f (List.fst_mem_of_mem_zipIdx (List.mem_of_find?_eq_some hk))
      refine mapRes_keeps (fun r hr => ?_) (hf.item.inline m hm)
      cases r with
      | err e => exact hr
      | panic => trivial
      | ok v => exact runAndThens_in h.andThen _ (finish_in _ _ (setPass_in h.fields _ Errors.in_new))
    · exact Keeps.panic
  · split
    · exact mapRes_keeps (runAndThens_in h.andThen) (namedFlat_loc (d := d.attrData site) h.fields _ m hm _ _)
    · exact mapRes_keeps (runAndThens_in h.andThen)
        (unnamedFlat_loc (d := d.attrData site) ⟨h.fields, A.callSite⟩ m hm _)
    · intro l hl
      obtain ⟨h1, h2⟩ := eofAll_loc l hl
      dsimp only
      split
      · rename_i heq; rw [heq] at h2; exact ⟨runAndThens_in h.andThen (.ok []) trivial, h2⟩
      · rename_i heq; rw [heq] at h1 h2; exact ⟨h1, h2⟩
      · rename_i heq; rw [heq] at h2; exact ⟨trivial, h2⟩

theorem EnumDef.In.attrBody {e : EnumDef V} (h : e.In P) (site : Site V) (m : Mode) (hm : m.In P) :
    LocL P (e.attrBody site m) := enumFlat_loc h site m hm _ _

omit [Env] A in
theorem parseTokens_in {α : Type} (A : P callSite) {toks : List Tok} (ht : ∀ t ∈ toks, t.In P) {f : M Stream α}
    (hf : Loc P f) : (parseTokens toks f).In P fun _ => True := by
  have h : ∀ X, parse2 (fun stream =>
    match f stream with
    | (.panic, s') => ((.panic, s') : Res (Errors × Option α) × Stream)
    | (.ok a, s') =>
      match parseEof s' with
      | (.err e, s'') => (.ok (Errors.new.pushSyn e, some a), s'')
      | (_, s'') => (.ok (Errors.new, some a), s'')
    | (.err e, s') =>
      match parseEof s' with
      | (.err e', s'') => (.ok ((Errors.new.pushSyn e).pushSyn e', none), s'')
      | (_, s'') => (.ok (Errors.new.pushSyn e, none), s'')) toks = X → X.In P fun x => x.1.In P := by
    intro X hX
    subst hX
    refine parse2_in A ht fun s hs => ?_
    obtain ⟨h1, h2⟩ := hf s hs
    cases hX : f s with
    | mk r s' =>
      rw [hX] at h1 h2
      obtain ⟨g1, g2⟩ := parseEof_loc s' h2
      cases hY : parseEof s' with
      | mk r2 s'' =>
        rw [hY] at g1 g2
        cases r with
        | panic => exact ⟨trivial, h2⟩
        | ok a =>
          dsimp only
          rw [hY]
          cases r2 with
          | ok u => exact ⟨Errors.in_new, g2⟩
          | panic => exact ⟨Errors.in_new, g2⟩
          | err e => exact ⟨Errors.in_new.pushSyn g1, g2⟩
        | err e =>
          dsimp only
          rw [hY]
          cases r2 with
          | ok u => exact ⟨Errors.in_new.pushSyn h1, g2⟩
          | panic => exact ⟨Errors.in_new.pushSyn h1, g2⟩
          | err e' => exact ⟨(Errors.in_new.pushSyn h1).pushSyn g1, g2⟩
  simp only [parseTokens]
  split
  · rename_i heq
    have hc := Errors.In.check (h _ heq)
    split
    · split <;> trivial
    · rename_i heq2; rw [heq2] at hc; exact hc
    · trivial
  · rename_i heq; exact h _ heq
  · trivial

omit [Env] A in
theorem StreamsIn.take {l : List Stream} (h : StreamsIn P l) (n : Nat) : StreamsIn P (l.take n) :=
  fun s hs => h s (List.mem_of_mem_take hs)

omit [Env] A in
theorem StreamsIn.snoc {l : List Stream} (h : StreamsIn P l) {s : Stream} (hs : s.In P) : StreamsIn P (l ++ [s]) := by
  intro t ht
  rcases List.mem_append.1 ht with ht | ht
  · exact h t ht
  · rw [List.mem_singleton.1 ht]; exact hs

omit [Env] A in
theorem parseNext_loc {α : Type} (A : P callSite) {func : List (Str × Span) → M (List Stream) α}
    (hf : ∀ paths : List (Str × Span), (∀ x ∈ paths, P x.2) → LocL P (func paths))
    (attrs : List (List Tok × Str × Span)) (ha : ∀ a ∈ attrs, (∀ t ∈ a.1, t.In P) ∧ P a.2.2)
    (paths : List (Str × Span)) (hp : ∀ x ∈ paths, P x.2) : LocL P (parseNext func attrs paths) := by
  induction attrs generalizing paths with
  | nil =>
    intro l hl
    simp only [parseNext]
    exact Keeps.bind (hf paths hp) (fun _ _ => Keeps.bind eofAll_loc fun _ _ => Keeps.pure trivial) l hl
  | cons a attrs ih =>
    obtain ⟨toks, name, span⟩ := a
    intro buffers hl
    obtain ⟨ht, hspan⟩ := ha _ List.mem_cons_self
    have ih := fun paths hp => ih (fun a h => ha a (List.mem_cons_of_mem _ h)) paths hp
    have hp' : ∀ x ∈ paths ++ [(name, span)], P x.2 := by
      intro x hx
      rcases List.mem_append.1 hx with hx | hx
      · exact hp x hx
      · rw [List.mem_singleton.1 hx]; exact hspan
    have inner : ∀ (stream : Stream), stream.In P → ∀ Y : Res α × List Stream × Stream, (
      if stream.isEmpty then
        let (r, l) := parseNext func attrs (paths ++ [(name, span)]) (buffers ++ [stream.fork])
        (r, l.take buffers.length, stream)
      else
        match enter .paren stream with
        | .error e => (.err e, buffers, stream)
        | .ok (content, stream') =>
          let (r, l) := parseNext func attrs (paths ++ [(name, span)]) (buffers ++ [content])
          (r, l.take buffers.length, stream'.dropChild (l.getD buffers.length content))) = Y →
        Y.1.In P (fun _ => True) ∧ StreamsIn P Y.2.1 ∧ Y.2.2.In P := by
      intro stream hs Y hY
      subst hY
      split
      · obtain ⟨h1, h2⟩ := ih _ hp' _ (hl.snoc hs.fork)
        exact ⟨h1, h2.take _, hs⟩
      · split
        · rename_i e he
          exact ⟨enter_err hs he, hl, hs⟩
        · rename_i content stream' he
          obtain ⟨g1, g2⟩ := enter_in hs he
          obtain ⟨h1, h2⟩ := ih _ hp' _ (hl.snoc g1)
          refine ⟨h1, h2.take _, g2.dropChild ?_⟩
          rw [List.getD_eq_getElem?_getD]
          cases hg : (parseNext func attrs (paths ++ [(name, span)]) (buffers ++ [content])).2[buffers.length]? with
          | none => exact g1
          | some t => exact h2 t (List.mem_of_getElem? hg)
    simp only [parseNext]
    refine ⟨parseTokens_in A ht fun s hs => ?_, (inner ⟨toks, callSite, none⟩ ⟨ht, A, fun _ h => by cases h⟩ _ rfl).2.1⟩
    have := inner s hs _ rfl
    exact ⟨this.1, this.2.2⟩

omit [Env] A in
theorem metaTokens_in {a : Attr} (A : P callSite) (h : a.In P) : ∀ t ∈ a.body.tokens, t.In P := by
  have hb := h.body
  cases hm : a.body with
  | path => intro t ht; cases ht
  | list d toks =>
    rw [hm] at hb
    intro t ht
    simp only [Meta.tokens, List.mem_singleton] at ht
    subst ht
    exact .group hb A A
  | nameValue toks => rw [hm] at hb; exact hb

omit [Env] A in
theorem refTokens_in {attrs : List Attr} (A : P callSite) {f : APath → Bool}
    (h : ∀ a ∈ attrs, f a.path = true → a.In P) :
    ∀ x ∈ refTokens f attrs, (∀ t ∈ x.1, t.In P) ∧ P x.2.2 := by
  intro x hx
  obtain ⟨a, ha, hax⟩ := List.mem_filterMap.1 hx
  split at hax
  · rename_i hm
    cases hax
    exact ⟨metaTokens_in A (h a ha hm), (h a ha hm).path⟩
  · cases hax

omit [Env] A in
theorem takeLoop_in (A : P callSite) (f : APath → Bool) (attrs : List Attr) (i : Nat)
    (tokens : List (List Tok × Str × Span)) (h : ∀ a ∈ attrs, f a.path = true → a.In P)
    (ht : ∀ x ∈ tokens, (∀ t ∈ x.1, t.In P) ∧ P x.2.2) :
    ∀ x ∈ (takeLoop f attrs i tokens).1, (∀ t ∈ x.1, t.In P) ∧ P x.2.2 := by
  fun_induction takeLoop f attrs i tokens with
  | case1 attrs i tokens hi attr hm ih =>
    have ha : attr ∈ attrs := List.getElem_mem hi
    refine ih (fun a ha => h a (List.mem_of_mem_eraseIdx ha)) fun x hx => ?_
    rcases List.mem_append.1 hx with hx | hx
    · exact ht x hx
    · rw [List.mem_singleton.1 hx]
      exact ⟨metaTokens_in A (h _ ha hm), (h _ ha hm).path⟩
  | case2 attrs i tokens hi attr hm ih => exact ih h ht
  | case3 attrs i tokens hi => exact ht

omit [Env] A in
theorem firstSpan_in {paths : List (Str × Span)} (A : P callSite) (h : ∀ x ∈ paths, P x.2) : P (firstSpan paths) := by
  cases paths with
  | nil => exact A
  | cons x rest => exact h x List.mem_cons_self

end

end Deluxe
