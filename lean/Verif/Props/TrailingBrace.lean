import Verif.Props.TrailingEnum
import Verif.Props.ReorderFlat
import Verif.Props.TopParse
/-!
# C118, concluded: a comma after the last item of a structure or enum in braces
-/
namespace Deluxe

variable {V : Type}

/-! ## Nothing is left -/

/-- If it succeeds it has read everything. -/
def Whole {α : Type} (q : M (List Stream) α) : Prop := ∀ l v l', q l = (.ok v, l') → AllRead l'

section
variable [Env]

omit [Env] in
theorem flatPass_whole {fs : List (Field V)} {pre : Str} {span : Span} {allowed : List Str}
    (hf : ∀ f ∈ fs, f.flatParsable = true → Whole (f.flatCall pre span allowed))
    (sts : Slots V) (hlen : sts.length = fs.length) {errs errs' : Errors} {l l' : List Stream}
    {slots : Slots V} (h : flatPass pre span allowed fs sts errs l = (.ok (slots, errs'), l')) (he : errs'.toList = []) :
    errs.toList = [] ∧ (fs.any (·.flatParsable) = true → AllRead l') := by
  induction fs generalizing sts errs l slots with
  | nil =>
    cases sts with
    | nil => simp only [flatPass] at h; cases h; exact ⟨he, fun h => by cases h⟩
    | cons st sts => cases hlen
  | cons f fs ih =>
    cases sts with
    | nil => cases hlen
    | cons st sts =>
      have hlen : sts.length = fs.length := by simpa using hlen
      have ih := fun {errs} {l} {slots} h =>
        ih (fun g hg => hf g (List.mem_cons_of_mem _ hg)) sts hlen (errs := errs) (l := l) (slots := slots) h
      have tail : ∀ {x : FieldStatus V} {e1 l1},
          ((flatPass pre span allowed fs sts e1 l1).1.map (fun y => (x :: y.1, y.2)),
            (flatPass pre span allowed fs sts e1 l1).2) = (.ok (slots, errs'), l') →
          e1.toList = [] ∧ (fs.any (·.flatParsable) = true → AllRead l') := by
        intro x e1 l1 h
        cases hr : flatPass pre span allowed fs sts e1 l1 with
        | mk r l2 =>
          rw [hr] at h
          cases r with
          | ok y =>
            obtain ⟨y1, y2⟩ := y
            simp only [Res.map, Prod.mk.injEq, Res.ok.injEq] at h
            obtain ⟨⟨-, rfl⟩, rfl⟩ := h
            exact ih hr
          | err e => simp [Res.map] at h
          | panic => simp [Res.map] at h
      simp only [flatPass] at h
      by_cases hp : f.flatParsable = true
      · rw [if_pos hp] at h
        by_cases ha : fs.any (·.flatParsable) = true
        · rw [if_pos ha] at h
          dsimp only at h
          cases hc : (f.flatCall pre span allowed (forkInputs l)).1 with
          | ok v => rw [hc] at h; exact ⟨(tail h).1, fun _ => (tail h).2 ha⟩
          | err e =>
            rw [hc] at h
            have := (tail h).1
            simp [SynErr.toList] at this
          | panic => rw [hc] at h; cases h
        · rw [if_neg ha] at h
          have hd := hf f List.mem_cons_self hp l
          have hnone := fun e l => flatPass_none (by simpa using ha) pre span allowed sts hlen e l
          cases hc : f.flatCall pre span allowed l with
          | mk r l1 =>
            rw [hc] at h hd
            dsimp only at h hd
            cases r with
            | ok v =>
              refine ⟨(tail h).1, fun _ => ?_⟩
              rw [hnone] at h
              simp only [Res.map, Prod.mk.injEq, Res.ok.injEq] at h
              rw [← h.2]
              exact hd v l1 rfl
            | err e =>
              dsimp only at h
              rw [hnone] at h
              simp only [Res.map, Prod.mk.injEq, Res.ok.injEq] at h
              obtain ⟨⟨-, rfl⟩, -⟩ := h
              simp [SynErr.toList] at he
            | panic => cases h
      · rw [if_neg hp] at h
        have : ((f :: fs).any fun x => x.flatParsable) = fs.any (·.flatParsable) := by simp [hp]
        rw [this]
        exact tail h

/-- A structure that is accepted has read everything. -/
theorem namedFlat_whole (d : Fields V) (hg : FieldsGood d.fields) (allowed : List Str) (k : Span) (pre : Str)
    (validate : Bool) (hf : ∀ f ∈ d.fields, f.flatParsable = true → Whole (f.flatCall pre k allowed)) :
    Whole (namedFlat d allowed (.named k) pre validate) := by
  intro l vs l' h
  obtain ⟨rs, fatal, l0, hr⟩ := ReadsAll.exists (structItem_good (fields := d.fields) hg.named pre)
    (if d.fields.any (·.flatParsable) then forkInputs l else l)
  obtain ⟨e0, h1, -⟩ := parseStruct_reads d hg.named allowed pre validate hr
  have hlen : (itemSlots d.fields.length (rs.map (·.1))).length = d.fields.length := by simp [itemSlots]
  unfold namedFlat at h
  simp only [h1] at h
  have key : ∀ errs lx, (match flatPass pre k allowed d.fields (itemSlots d.fields.length (rs.map (·.1))) errs lx with
      | (.ok (slots, errs), l2) => (postNamed d pre k slots errs, l2)
      | (.err e, l2) => (.err e, l2)
      | (.panic, l2) => (.panic, l2) : Res (List V) × List Stream) = (.ok vs, l') →
      errs.toList = [] ∧ (d.fields.any (·.flatParsable) = true → AllRead l') ∧
        (d.fields.any (·.flatParsable) = false → l' = lx) := by
    intro errs lx hx
    cases hr : flatPass pre k allowed d.fields (itemSlots d.fields.length (rs.map (·.1))) errs lx with
    | mk r l2 =>
      have hn := fun ha => flatPass_none (fs := d.fields) ha pre k allowed _ hlen errs lx
      rw [hr] at hx hn
      cases r with
      | ok x =>
        obtain ⟨slots, errs'⟩ := x
        simp only [Prod.mk.injEq] at hx
        obtain ⟨hx, rfl⟩ := hx
        have := flatPass_whole hf _ hlen hr (postNamed_nil hg.missing hx)
        refine ⟨this.1, this.2, fun ha => ?_⟩
        have := hn ha
        simp only [Prod.mk.injEq] at this
        exact this.2
      | err e => simp at hx
      | panic => simp at hx
  cases fatal with
  | some e =>
    simp only [stopped] at h
    have := (key _ _ h).1
    simp [SynErr.toList] at this
  | none =>
    simp only [stopped] at h
    cases ha : d.fields.any (·.flatParsable) with
    | true => exact (key _ _ h).2.1 ha
    | false =>
      rw [(key _ _ h).2.2 ha]
      simpa [ha] using hr.read

theorem enumFlat_whole (e : EnumDef V) (site : Site V) (mode : Mode) (pre : Str) (validate : Bool) :
    Whole (enumFlat e site mode pre validate) := by
  intro l v l' h
  unfold enumFlat at h
  dsimp only at h
  split at h
  · simp at h
  · split at h
    · simp only [Prod.mk.injEq] at h
      rw [← h.2]
      exact skipAll_left _
    · simp at h
    · simp at h

omit [Env] in
theorem Whole.mapped {α β : Type} {q : M (List Stream) α} (h : Whole q) {g : Res α → Res β}
    (hg : ∀ r y, g r = .ok y → ∃ x, r = .ok x) : Whole (q.mapRes g) := by
  intro l v l' hq
  simp only [M.mapRes, Prod.mk.injEq] at hq
  obtain ⟨x, hx⟩ := hg _ _ hq.1
  exact h l x l' (Prod.ext hx hq.2)

/-- A flattened field, an append field or a rest field that is accepted has read everything. -/
theorem PlainFlat.whole {α : Type} {q : M (List Stream) α} (h : PlainFlat q) : Whole q := by
  induction h with
  | appendSeq d names h1 _ => exact fun l v l' h => (c26_only_sequence d h1 names l l' v h).elim fun _ h => h.2.2
  | appendSet d names h1 _ => exact fun l v l' h => (c26_only_set d h1 names l l' v h).elim fun _ h => h.2.2.2
  | rest kd keyStr vd exclude h1 h2 _ _ _ =>
    exact fun l v l' h => (c27_only_entries kd keyStr vd h1 h2 exclude l l' v h).elim fun _ h => h.2.2.2
  | struct d k pre validate _ _ h3 _ _ ih =>
    refine (namedFlat_whole d.data h3 (Field.fieldNames d.fields) k pre validate ih).mapped ?_
    intro r y h
    cases r with
    | ok x => exact ⟨x, rfl⟩
    | err e => cases h
    | panic => cases h
  | enum e k pre validate _ _ _ _ _ _ => exact enumFlat_whole e .meta (.named k) pre validate
  | embed f _ ih =>
    refine ih.mapped ?_
    intro r y h
    cases r with
    | ok x => exact ⟨x, rfl⟩
    | err e => cases h
    | panic => cases h

/-! ## In braces -/

/-- **C118.**  `{a, b}` and `{a, b,}` are the same structure. -/
theorem c118_struct_braces (d : StructDef V) (ha : d.Accepted) (ht : d.isTransparent = false) (hs : d.shape = .named)
    (hg : d.FieldsFine) (hi : ∀ f ∈ d.fields, f.item.EndsAlike) (k : Span)
    (hfl : ∀ f ∈ d.fields, f.flatParsable = true → PlainFlat (f.flatCall [] k (Field.fieldNames d.fields)))
    {ts : List Tok} (hn : NoTrailing ts) {c : Tok} (hc : Comma c) (a b : Span) (rest : List Tok) (sc : Span)
    (u : Option Span) (vs : List V) :
    (d.dict.parse (.named k) ⟨.group .brace (ts ++ [c]) a b :: rest, sc, u⟩).1 = .ok vs ↔
      (d.dict.parse (.named k) ⟨.group .brace ts a b :: rest, sc, u⟩).1 = .ok vs := by
  have hp : PlainFlat (d.flatNamed.parse (.named k) [] (!d.acceptsAll)) :=
    .struct d k [] _ ha ht ⟨fun f hf _ => (hg.item f hf).named, fun f hf => (hg.item f hf).missing, hg.flat hs⟩ hi hfl
  have key : ∀ inner, (d.dict.parse (.named k) ⟨.group .brace inner a b :: rest, sc, u⟩).1 = .ok vs ↔
      (d.flatNamed.parse (.named k) [] (!d.acceptsAll) [⟨inner, b, u⟩]).1 = .ok vs := by
    intro inner
    have hd : d.dict.parse (.named k) = parseDelimitedMetaItem .brace
        (fun mode => d.flatNamed.parse mode [] (!d.acceptsAll)) (.named k) := by
      simp only [StructDef.dict, ht, hs]
      rfl
    rw [hd]
    exact brackets_iff (d.flatNamed_good ha ht hs hg _ _ _) fun l' h => hp.whole _ _ _ h
  rw [key, key]
  exact c118_every_flat hp ts c b u vs hn hc

/-- **C118.**  The same for enums. -/
theorem c118_enum_braces (e : EnumDef V) (ha : e.Accepted .meta) (hg : e.FieldsFine) (hinf : e.Infallible)
    (hi : ∀ v ∈ e.variants, ∀ f ∈ v.fields, f.item.EndsAlike) (m : Mode)
    (hfl : ∀ k, ∀ v ∈ e.variants, v.ByFields → ∀ f ∈ v.fields, f.flatParsable = true →
      PlainFlat (f.flatCall [] k (Field.fieldNames v.fields)))
    {ts : List Tok} (hn : NoTrailing ts) {c : Tok} (hc : Comma c) (a b : Span) (rest : List Tok) (sc : Span)
    (u : Option Span) (x : EnumVal V) :
    (e.dict.parse m ⟨.group .brace (ts ++ [c]) a b :: rest, sc, u⟩).1 = .ok x ↔
      (e.dict.parse m ⟨.group .brace ts a b :: rest, sc, u⟩).1 = .ok x := by
  have hm : ∀ inner inner', m.toNamed ⟨.group .brace inner a b :: rest, sc, u⟩ =
      m.toNamed ⟨.group .brace inner' a b :: rest, sc, u⟩ := by
    intro inner inner'
    cases m <;> rfl
  have hex : ∃ k, m.toNamed ⟨.group .brace ts a b :: rest, sc, u⟩ = .named k := by
    cases m <;> exact ⟨_, rfl⟩
  obtain ⟨k, hk⟩ := hex
  have hp : PlainFlat (e.flatNamed.parse (.named k) [] true) := .enum e k [] _ ha hg hinf hi (hfl k)
  have key : ∀ inner, (e.dict.parse m ⟨.group .brace inner a b :: rest, sc, u⟩).1 = .ok x ↔
      (e.flatNamed.parse (.named k) [] true [⟨inner, b, u⟩]).1 = .ok x := by
    intro inner
    have hd : e.dict.parse m ⟨.group .brace inner a b :: rest, sc, u⟩ =
        parseDelimitedMetaItem .brace (fun mode => e.flatNamed.parse mode [] true) (.named k)
          ⟨.group .brace inner a b :: rest, sc, u⟩ := by
      rw [← hk, hm ts inner]
      rfl
    rw [hd]
    exact brackets_iff (e.flatNamed_good ha hg hinf _ _ _) fun l' h => hp.whole _ _ _ h
  rw [key, key]
  exact c118_every_flat hp ts c b u x hn hc

/-! ## Examples -/

/-- C118: the flattened and the append field of the structure of C101 are of the kinds considered. -/
theorem threeKinds_plain (k : Span) : ∀ f ∈ threeKinds.fields, f.flatParsable = true →
    PlainFlat (f.flatCall [] k (Field.fieldNames threeKinds.fields)) := by
  refine threeKinds_all.2 ⟨fun h => (by cases h), fun _ => ?_, fun _ => ?_⟩
  · refine .struct (twoNamed "p" "q") k _ _ ?_ rfl ?_ ?_ ?_
    · refine ⟨⟨fun f hf h => ?_, fun _ h => ?_⟩, fun h => ?_, fun h => ?_⟩
      · simp only [StructDef.data, twoNamed, List.mem_cons, List.not_mem_nil, or_false] at hf
        rcases hf with rfl | rfl <;> cases h
      all_goals cases h
    · exact ⟨fun f hf _ => (twoNamed_fine.item f hf).named, fun f hf => (twoNamed_fine.item f hf).missing,
        twoNamed_fine.flat rfl⟩
    · intro f hf
      simp only [twoNamed, List.mem_cons, List.not_mem_nil, or_false] at hf
      rcases hf with rfl | rfl <;> exact ends_bool
    · intro f hf h
      simp only [twoNamed, List.mem_cons, List.not_mem_nil, or_false] at hf
      rcases hf with rfl | rfl <;> cases h
  · exact .appendSeq boolDict _ boolDict_good.named ends_bool

/-- C118: the types of its fields as well. -/
example : ∀ f ∈ threeKinds.fields, f.item.EndsAlike :=
  threeKinds_all.2 ⟨ends_bool.map _, ends_bool.map _, ends_bool.map _⟩

/-- C118: `{q, x, a, p}` and `{q, x, a, p,}` are read as the same structure. -/
example : letI : Env := ⟨fun a _ => some a, fun _ _ => 0, 1⟩
    ((threeKinds.dict.parse (.named 0) ⟨[.group .brace [.ident ['q'] 1, .punct ',' false 2, .ident ['x'] 3, .punct ',' false 4,
      .ident ['a'] 5, .punct ',' false 6, .ident ['p'] 7] 8 9], 0, none⟩).1 matches .ok [[true], [true, true], [true]]) ∧
    ((threeKinds.dict.parse (.named 0) ⟨[.group .brace [.ident ['q'] 1, .punct ',' false 2, .ident ['x'] 3, .punct ',' false 4,
      .ident ['a'] 5, .punct ',' false 6, .ident ['p'] 7, .punct ',' false 10] 8 9], 0, none⟩).1
      matches .ok [[true], [true, true], [true]]) := by
  decide +kernel

omit [Env] in
/-- C118: the enum of C43 has variants with and without `flatten`, of types with the property. -/
example : (∀ v ∈ demoEnum.variants, ∀ f ∈ v.fields, f.item.EndsAlike) ∧
    (∀ v ∈ demoEnum.variants, ∀ f ∈ v.fields, f.flatParsable = false) := by
  refine ⟨fun v hv f hf => ?_, fun v hv f hf => ?_⟩ <;>
    simp only [demoEnum, List.mem_cons, List.not_mem_nil, or_false] at hv <;>
    rcases hv with rfl | rfl | rfl | rfl <;> simp only [boolVariant, List.mem_map] at hf <;> obtain ⟨x, _, rfl⟩ := hf <;>
    first | exact ends_bool | rfl

/-- C118: `{q, p}` and `{q, p,}` are read as the same value, by its fields. -/
example : letI : Env := ⟨fun a _ => some a, fun _ _ => 0, 1⟩
    ((demoEnum.dict.parse .unnamed ⟨[.group .brace [.ident ['q'] 1, .punct ',' false 2, .ident ['p'] 3] 8 9], 0, none⟩).1
      matches .ok (2, [true, true])) ∧
    ((demoEnum.dict.parse .unnamed ⟨[.group .brace [.ident ['q'] 1, .punct ',' false 2, .ident ['p'] 3, .punct ',' false 4]
      8 9], 0, none⟩).1 matches .ok (2, [true, true])) := by
  decide +kernel

end
end Deluxe
