import Verif.Props.Replaced
import Verif.Props.Tokens
import Verif.Props.FlatFallback
/-!
# C128: an item can be added for a field that has none
-/
namespace Deluxe

/-! ## Specification -/

/-- The same items and `w`, in front of one of them or after the last comma. -/
inductive Inserted (w : List Tok) : List Tok → List Tok → Prop
  | alone : Inserted w [] w
  | first {c r} : Comma c → Inserted w r (w ++ c :: r)
  | next {u c r r'} : NoComma u → Comma c → Inserted w r r' → Inserted w (u ++ c :: r) (u ++ c :: r')

/-- The same for several lists, such as those of several attributes; `sc` is the span at the end of that with the item. -/
inductive InsertedAll (w : List Tok) (sc : Span) : List Stream → List Stream → Prop
  | here {ts ts' u l} : Inserted w ts ts' → InsertedAll w sc (⟨ts, sc, u⟩ :: l) (⟨ts', sc, u⟩ :: l)
  | next {s l l'} : InsertedAll w sc l l' → InsertedAll w sc (s :: l) (s :: l')

/-- `v` is one of the items separated by commas. -/
inductive ItemOf (v : List Tok) : List Tok → Prop
  | last : ItemOf v v
  | here {c r} : Comma c → ItemOf v (v ++ c :: r)
  | next {u c r} : NoComma u → Comma c → ItemOf v r → ItemOf v (u ++ c :: r)

section
variable [Env] {V : Type}

/-- No item is given for field `i`. -/
def NotYet (fields : List (Field V)) (pre : Str) (i : Nat) (l : List Stream) : Prop :=
  ∀ s ∈ l, ∀ segs sp v vt, KeyToks segs sp v vt → NoComma vt → ItemOf v s.toks → ∀ f, ¬ Owns fields pre (keyString segs) f i

/-! ## Items -/

omit [Env] in
theorem ItemOf.swapped {v ts : List Tok} (h : ItemOf v ts) : Swapped v v ts ts := by
  induction h with
  | last => exact .last
  | here hc => exact .here hc
  | next hu hc _ ih => exact .next hu hc ih

omit [Env] in
theorem Inserted.swapped {w ts ts' : List Tok} (h : Inserted w ts ts') : Swapped w w ts' ts' := by
  induction h with
  | alone => exact .last
  | first hc => exact .here hc
  | next hu hc _ ih => exact .next hu hc ih

omit [Env] in
theorem InsertedAll.swapped {w : List Tok} {sc : Span} {l l' : List Stream} (h : InsertedAll w sc l l') :
    SwappedAll w w sc l' l' := by
  induction h with
  | here h => exact .here h.swapped
  | next _ ih => exact .next ih

omit [Env] in
theorem swappedAll_of_mem {v : List Tok} {s : Stream} (h : ItemOf v s.toks) {l : List Stream} (hs : s ∈ l) :
    SwappedAll v v s.scope l l := by
  induction l with
  | nil => cases hs
  | cons t l ih =>
    rcases List.mem_cons.1 hs with rfl | hs
    · exact .here h.swapped
    · exact .next (ih hs)

omit [Env] in
theorem InsertedAll.fresh {w : List Tok} {sc : Span} {l l' : List Stream} (h : InsertedAll w sc l l') (hl : Fresh l) :
    Fresh l' := by
  induction h with
  | @here ts _ u l h =>
    intro s hs
    rcases List.mem_cons.1 hs with rfl | hs
    · exact hl ⟨ts, sc, u⟩ List.mem_cons_self
    · exact hl s (List.mem_cons_of_mem _ hs)
  | next _ ih =>
    intro s hs
    rcases List.mem_cons.1 hs with rfl | hs
    · exact hl _ List.mem_cons_self
    · exact ih (fun t ht => hl t (List.mem_cons_of_mem _ ht)) s hs

theorem Inserted.dropped {P : Str → Prop} {segs sp w wt} (hw : KeyToks segs sp w wt) (h1 : P (keyString segs))
    (n1 : NoComma wt) {ts ts' : List Tok} (h : Inserted w ts ts') : Dropped P ts' ts := by
  induction h with
  | alone => exact .last hw h1 n1
  | first hc => exact .more hw h1 n1 hc (.same _)
  | next hu hc _ ih => exact .keep hu hc ih

theorem InsertedAll.dropped {P : Str → Prop} {segs sp w wt} (hw : KeyToks segs sp w wt) (h1 : P (keyString segs))
    (n1 : NoComma wt) {sc : Span} {l l' : List Stream} (h : InsertedAll w sc l l') : DroppedAll P l' l := by
  induction h with
  | here h => exact .cons (h.dropped hw h1 n1) (.refl _ _)
  | next _ ih => exact .cons (.same _) ih

omit [Env] in
/-- The items read from a list, and those with one more item. -/
theorem Inserted.reads {β : Type} {p : M Stream β} (he : EndsAlike p) (ht : Tidy p) {w : List Tok} (hne : w ≠ [])
    (hw : NoComma w) {ts ts' : List Tok} (h : Inserted w ts ts') {sc : Span} {rs s1}
    (hr : Reads p ⟨ts, sc, none⟩ rs none s1) :
    ∃ xs ys, rs.map (·.1) = xs ++ ys ∧ ∀ b, p ⟨w, sc, none⟩ = (.ok b, ⟨[], sc, none⟩) →
      ∃ rs' s1', Reads p ⟨ts', sc, none⟩ rs' none s1' ∧ rs'.map (·.1) = xs ++ b :: ys := by
  induction h generalizing rs s1 with
  | alone =>
    have : rs = [] := by
      cases hr with
      | done h => rfl
      | last h => exact absurd rfl h
      | more h => exact absurd rfl h
    subst this
    exact ⟨[], [], rfl, fun b hb => ⟨_, _, .last hne hb rfl, rfl⟩⟩
  | @first c r hc =>
    refine ⟨[], rs.map (·.1), rfl, fun b hb => ?_⟩
    have := he.alone ht hw (.inl rfl) (by simpa using hb) rfl (rest' := c :: r) (.inr ⟨_, _, rfl, hc⟩)
    exact ⟨_, _, .more (by simp) this rfl hc hr, rfl⟩
  | next hu hc _ ih =>
    obtain ⟨b, x, rs1, rfl, h2, h3⟩ := Reads.front he ht hu hc hr
    obtain ⟨xs, ys, i1, i3⟩ := ih h2
    refine ⟨b :: xs, ys, by simp [i1], fun b' hb' => ?_⟩
    obtain ⟨rs', s1', j1, j2⟩ := i3 b' hb'
    exact ⟨_, _, .more (by simp) (h3 _ (.inr ⟨_, _, rfl, hc⟩)) rfl hc j1, by simp [j2]⟩

omit [Env] in
theorem InsertedAll.reads {β : Type} {p : M Stream β} (he : EndsAlike p) (ht : Tidy p) {w : List Tok} (hne : w ≠ [])
    (hw : NoComma w) {sc : Span} {l l' : List Stream} (h : InsertedAll w sc l l') (hl : Fresh l) {rs l1}
    (hr : ReadsAll p l rs none l1) :
    ∃ xs ys, rs.map (·.1) = xs ++ ys ∧ ∀ b, p ⟨w, sc, none⟩ = (.ok b, ⟨[], sc, none⟩) →
      ∃ rs' l1', ReadsAll p l' rs' none l1' ∧ rs'.map (·.1) = xs ++ b :: ys := by
  induction h generalizing rs l1 with
  | @here ts ts' u l h =>
    have hu : u = none := hl _ List.mem_cons_self
    subst hu
    cases hr with
    | cons h1 h2 =>
      obtain ⟨xs, ys, i1, i3⟩ := h.reads he ht hne hw h1
      refine ⟨xs, ys ++ _, by rw [List.map_append, i1, List.append_assoc], fun b' hb' => ?_⟩
      obtain ⟨rs', s1', j1, j2⟩ := i3 b' hb'
      exact ⟨_, _, .cons j1 h2, by rw [List.map_append, j2, List.append_assoc, List.cons_append]⟩
  | next _ ih =>
    cases hr with
    | cons h1 h2 =>
      obtain ⟨xs, ys, i1, i3⟩ := ih (fun s hs => hl s (List.mem_cons_of_mem _ hs)) h2
      refine ⟨_ ++ xs, ys, by rw [List.map_append, i1, List.append_assoc], fun b' hb' => ?_⟩
      obtain ⟨rs', s1', j1, j2⟩ := i3 b' hb'
      exact ⟨_, _, .cons h1 j1, by rw [List.map_append, j2, List.append_assoc]⟩

omit [Env] in
/-- What was read was read from one of the items. -/
theorem Reads.itemOf {β : Type} {p : M Stream β} (he : EndsAlike p) (ht : Tidy p) (n : Nat) :
    ∀ {ts : List Tok} {sc : Span} {rs s1}, ts.length ≤ n → Reads p ⟨ts, sc, none⟩ rs none s1 → ∀ b ∈ rs.map (·.1),
      ∃ v, NoComma v ∧ ItemOf v ts ∧ (p ⟨v, sc, none⟩).1 = .ok b := by
  induction n with
  | zero =>
    intro ts sc rs s1 hn hr b hb
    cases List.eq_nil_of_length_eq_zero (Nat.le_zero.1 hn)
    cases hr with
    | done h => cases hb
    | last h => exact absurd rfl h
    | more h => exact absurd rfl h
  | succ n ih =>
    intro ts sc rs s1 hn hr b hb
    obtain ⟨v, rest, rfl, hv, hbd⟩ := split_at_comma ts
    by_cases hne : v ++ rest = []
    · rw [hne] at hr
      cases hr with
      | done h => cases hb
      | last h => exact absurd rfl h
      | more h => exact absurd rfl h
    obtain ⟨b1, x, rs1, s2, _, g2, rfl, g3, g4⟩ := Reads.first he ht hv hne hbd hr
    have hitem : ItemOf v (v ++ rest) := by
      rcases hbd with rfl | ⟨c, r, rfl, hc⟩
      · rw [List.append_nil]
        exact .last
      · exact .here hc
    rcases List.mem_cons.1 hb with rfl | hb
    · exact ⟨v, hv, hitem, g2⟩
    · rcases hbd with rfl | ⟨c, r, rfl, hc⟩
      · rw [g3 rfl] at hb
        cases hb
      · obtain ⟨v', a1, a2, a3⟩ := ih (by simp at hn; omega) (g4 _ _ rfl hc) b hb
        exact ⟨v', a1, .next hv hc a2, a3⟩

omit [Env] in
theorem ReadsAll.itemOf {β : Type} {p : M Stream β} (he : EndsAlike p) (ht : Tidy p) {l : List Stream} (hl : Fresh l)
    {rs l1} (hr : ReadsAll p l rs none l1) : ∀ b ∈ rs.map (·.1),
      ∃ s ∈ l, ∃ v, NoComma v ∧ ItemOf v s.toks ∧ (p ⟨v, s.scope, none⟩).1 = .ok b := by
  generalize hf : (none : Option SynErr) = f at hr
  induction hr with
  | nil => intro b hb; cases hb
  | @cons s rs1 s1 rest rs2 fatal rest' h1 _ ih =>
    subst hf
    intro b hb
    rw [List.map_append] at hb
    rcases List.mem_append.1 hb with hb | hb
    · obtain ⟨ts, sc, u⟩ := s
      have hu : u = none := hl _ List.mem_cons_self
      subst hu
      obtain ⟨v, a⟩ := Reads.itemOf he ht _ (Nat.le_refl _) h1 b hb
      exact ⟨_, List.mem_cons_self, v, a⟩
    · obtain ⟨s, a, b⟩ := ih (fun s hs => hl s (List.mem_cons_of_mem _ hs)) rfl b hb
      exact ⟨s, List.mem_cons_of_mem _ a, b⟩
  | fail => cases hf

/-! ## Structures -/

omit [Env] in
theorem mem_owners_iff {bs : List (SItem V)} {i : Nat} : i ∈ owners bs ↔ ∃ n sp x, .field i n sp x ∈ bs := by
  induction bs with
  | nil => simp [owners]
  | cons a bs ih =>
    cases a with
    | field j m s y =>
      simp only [owners, List.mem_cons, ih]
      constructor
      · rintro (rfl | ⟨n, sp, x, h⟩)
        · exact ⟨_, _, _, .inl rfl⟩
        · exact ⟨n, sp, x, .inr h⟩
      · rintro ⟨n, sp, x, h | h⟩
        · cases h
          exact .inl rfl
        · exact .inr ⟨n, sp, x, h⟩
    | other k s => simp [owners, ih]

omit [Env] in
theorem owners_insert (xs ys : List (SItem V)) (i : Nat) (n : Str) (sp : Span) (x : Except SynErr V) :
    (owners (xs ++ .field i n sp x :: ys)).Perm (i :: owners (xs ++ ys)) := by
  induction xs with
  | nil => exact List.Perm.refl _
  | cons a xs ih =>
    cases a with
    | field j m s y =>
      simp only [List.cons_append, owners]
      exact (ih.cons j).trans (List.Perm.swap i j _)
    | other k s => simpa only [List.cons_append, owners] using ih

omit [Env] in
theorem given_insert (xs ys : List (SItem V)) (i j : Nat) (n : Str) (sp : Span) (x : Except SynErr V) (h : j ≠ i) :
    given j (xs ++ .field i n sp x :: ys) = given j (xs ++ ys) := by
  induction xs with
  | nil => simp only [List.nil_append, given, if_neg (Ne.symm h)]
  | cons a xs ih =>
    cases a with
    | field j m s y => simp only [List.cons_append, given, ih]
    | other k s => simpa only [List.cons_append, given] using ih

theorem strictItem_good {fields : List (Field V)} (hf : ∀ f ∈ fields, f.Plain → ∀ n sp, Good (f.item.named n sp))
    (pre : Str) : Good (strictItem fields pre) :=
  keyed_good fun key sp => by
    split
    · rename_i f j h
      have := ((owner_some _ _ _ _ _).1 h).mem
      exact Good.map _ (hf f this.1 this.2.1 _ _)
    · exact skipItem_good _

/-- An item that was read as one of a field has a name of this field. -/
theorem strictItem_owner {fields : List (Field V)} {pre : Str} {v : List Tok} {sc : Span} {i n sp x}
    (h : (strictItem fields pre ⟨v, sc, none⟩).1 = .ok (.field i n sp x)) (hv : NoComma v) :
    ∃ segs sp vt f, KeyToks segs sp v vt ∧ NoComma vt ∧ Owns fields pre (keyString segs) f i := by
  unfold strictItem keyed at h
  rcases hp : parseAnyPath ⟨v, sc, none⟩ with ⟨r, s1⟩
  rw [hp] at h
  cases r with
  | err e => cases h
  | panic => cases h
  | ok p =>
    obtain ⟨pt, a1, a2, a3, _⟩ := c07_path_sound _ _ _ hp
    simp only at a2
    subst a2
    refine ⟨p.segs, pathSpan pt, s1.toks, ?_⟩
    dsimp only at h
    cases ho : (stripPrefix pre (keyString p.segs)).bind (findArm fields) with
    | none =>
      rw [ho] at h
      cases h
    | some g =>
      obtain ⟨f, j⟩ := g
      rw [ho] at h
      have h' : ((f.item.named (f.idents.headD []) p.span).map
        (fun v => SItem.field j (f.idents.headD []) p.span (.ok v)) s1).1 = .ok (.field i n sp x) := h
      rcases hm : (f.item.named (f.idents.headD []) p.span) s1 with ⟨r, s2⟩
      simp only [M.map, hm] at h'
      cases r with
      | err e => cases h'
      | panic => cases h'
      | ok y =>
        cases h'
        exact ⟨f, .mk a1 a3, fun t ht => hv t (List.mem_append_right _ ht), (owner_some _ _ _ _ _).1 ho⟩

/-- No item is given for a field if and only if none was read for it. -/
theorem notYet_iff {fields : List (Field V)} {pre : Str} (he : EndsAlike (strictItem fields pre))
    (ht : Tidy (strictItem fields pre)) {l : List Stream} (hl : Fresh l) {rs l1}
    (hr : ReadsAll (strictItem fields pre) l rs none l1) (i : Nat) :
    NotYet fields pre i l ↔ i ∉ owners (rs.map (·.1)) := by
  constructor
  · intro h hi
    obtain ⟨n, sp, x, hm⟩ := mem_owners_iff.1 hi
    obtain ⟨s, hs, v, a1, a2, a3⟩ := hr.itemOf he ht hl _ hm
    obtain ⟨segs, sp', vt, f, b1, b2, b3⟩ := strictItem_owner a3 a1
    exact h s hs segs sp' v vt b1 b2 a2 f b3
  · intro h s hs segs sp v vt hk hn hi f ho
    obtain ⟨xs, b, ys, e1, e2, _⟩ := (swappedAll_of_mem hi hs).reads he ht (hk.noComma hn) hk.nonempty hk.nonempty
      (hk.noComma hn) hl hr
    rw [strictItem_alone hk ho] at e2
    obtain ⟨x0, _, rfl⟩ := M.map_read e2
    rw [e1] at h
    exact h (mem_owners_iff.2 ⟨_, _, _, List.mem_append_right _ List.mem_cons_self⟩)

/-- **C128.**  To a list of items that a structure accepts, let an item of a field be added.  The new list is accepted if
and only if the field had no item yet and the new item can be read on its own, and then only the value of this field is
another: what was read. -/
theorem c128_struct (d : Fields V) (ha : Accepted d) (ht : d.transparent = false) (hg : FieldsGood d.fields)
    (he : ∀ f ∈ d.fields, f.item.EndsAlike) (hy : ∀ f ∈ d.fields, ∀ n sp, Tidy (f.item.named n sp))
    (allowed : List Str) (k : Span) (pre : Str) (validate : Bool) {segs sp w wt} (hw : KeyToks segs sp w wt)
    (n1 : NoComma wt) {f : Field V} {i : Nat} (ho : Owns d.fields pre (keyString segs) f i)
    (hfl : ∀ f ∈ d.fields, f.flatParsable = true → Ignores (fun key => key = keyString segs) (f.flatCall pre k allowed))
    {sc : Span} {l l' : List Stream} (hs : InsertedAll w sc l l') (hl : Fresh l) {vs : List V}
    (h : (namedFlat d allowed (.named k) pre validate l).1 = .ok vs) (vs' : List V) :
    (namedFlat d allowed (.named k) pre validate l').1 = .ok vs' ↔
      NotYet d.fields pre i l ∧ ∃ y, TakesAlone f sc sp wt y ∧ vs' = vs.set i y := by
  have hl' := hs.fresh hl
  have hf1 : (if d.fields.any (·.flatParsable) then forkInputs l else l) = l := by
    rw [fork_fresh hl, ite_self]
  have hf2 : (if d.fields.any (·.flatParsable) then forkInputs l' else l') = l' := by
    rw [fork_fresh hl', ite_self]
  have hin := struct_iff_all d ha ht hg allowed k pre validate
  obtain ⟨rs, l1, h1, h2, h3, h4⟩ := (hin l vs).1 h
  rw [hf1] at h1
  have hends := strictItem_ends he pre
  have htidy := strictItem_tidy hy pre
  have hfi : d.fields[i]? = some f := ho.choose_spec.2.1
  have hpl : f.Plain := ho.choose_spec.2.2.1
  have hilt : i < vs.length := h3 ▸ (List.getElem?_eq_some_iff.1 hfi).1
  obtain ⟨xs, ys, e1, e3⟩ := hs.reads hends htidy hw.nonempty (hw.noComma n1) hl h1
  have hnot := notYet_iff hends htidy hl h1 i
  have hout : ∀ j g, d.fields[j]? = some g → g.flatParsable = true →
      flatOut d.fields pre k allowed l g j = flatOut d.fields pre k allowed l' g j := by
    intro j g hj hp
    unfold flatOut
    rw [fork_fresh hl, fork_fresh hl', ite_self, ite_self]
    exact (hfl g (List.mem_of_getElem? hj) hp _ _ (hs.dropped (P := fun key => key = keyString segs) hw rfl n1)).symm
  have hnew : ∀ x, f.item.named (f.idents.headD []) sp ⟨wt, sc, none⟩ = (.ok x, ⟨[], sc, none⟩) →
      ∃ rs' l1', ReadsAll (strictItem d.fields pre) l' rs' none l1' ∧
        rs'.map (·.1) = xs ++ .field i (f.idents.headD []) sp (.ok x) :: ys := fun x hx => e3 _ (by
      rw [strictItem_alone hw ho]
      simp only [M.map, hx]
      rfl)
  have key : NotYet d.fields pre i l → ∀ y, TakesAlone f sc sp wt y →
      (namedFlat d allowed (.named k) pre validate l').1 = .ok (vs.set i y) := by
    rintro hno y ⟨x, hx, hy'⟩
    obtain ⟨rs', l1', j1, j2⟩ := hnew x hx
    have honce : (owners (rs'.map (·.1))).Nodup := by
      rw [j2, (owners_insert xs ys i _ _ _).nodup_iff, ← e1]
      exact List.nodup_cons.2 ⟨hnot.1 hno, h2.once⟩
    refine (hin l' _).2 ⟨rs', l1', by rw [hf2]; exact j1, ?_, by simpa using h3, ?_⟩
    · have hv := h2.values
      have hk := h2.known
      rw [e1] at hv hk
      refine ⟨honce, fun j m s z hz => ?_, fun key s hz => ?_⟩
      · rw [j2] at hz
        rcases List.mem_append.1 hz with hz | hz
        · exact hv j m s z (List.mem_append_left _ hz)
        · rcases List.mem_cons.1 hz with hz | hz
          · cases hz
            exact ⟨x, rfl⟩
          · exact hv j m s z (List.mem_append_right _ hz)
      · rw [j2] at hz
        refine hk key s ?_
        rcases List.mem_append.1 hz with hz | hz
        · exact List.mem_append_left _ hz
        · rcases List.mem_cons.1 hz with hz | hz
          · cases hz
          · exact List.mem_append_right _ hz
    · intro j g hj
      by_cases hji : j = i
      · subst hji
        rw [hfi] at hj
        cases hj
        refine ⟨y, by simp [hilt], .inl ⟨x, .item hpl ?_, hy'⟩⟩
        exact (given_iff honce _ _).2 ⟨f.idents.headD [], sp, by rw [j2]; exact List.mem_append_right _ List.mem_cons_self⟩
      · obtain ⟨z, z1, z2⟩ := h4 j g hj
        refine ⟨z, by rw [List.getElem?_set_ne (Ne.symm hji)]; exact z1, ?_⟩
        simp only [Holds] at z2 ⊢
        rw [j2, given_insert xs ys i j _ _ _ hji, ← e1]
        exact z2.flat_iff fun hp x hx => hout j g hj hp ▸ hx
  constructor
  · intro h'
    obtain ⟨rs2, l2, g1, g2, _, g4⟩ := (hin l' vs').1 h'
    rw [hf2] at g1
    obtain ⟨xs', b', ys', a1, a2, _⟩ := hs.swapped.reads hends htidy (hw.noComma n1) hw.nonempty hw.nonempty
      (hw.noComma n1) hl' g1
    rw [strictItem_alone hw ho] at a2
    obtain ⟨x, hx, rfl⟩ := M.map_read a2
    obtain ⟨y, _, hh⟩ := g4 i f hfi
    have hgi : given i (rs2.map (·.1)) = some (.ok x) := by
      exact (given_iff g2.once _ _).2 ⟨f.idents.headD [], sp, by rw [a1]; exact List.mem_append_right _ List.mem_cons_self⟩
    simp only [Holds] at hh
    rw [hgi] at hh
    have htk : TakesAlone f sc sp wt y := by
      rcases hh with ⟨z, z1, z2⟩ | ⟨z1, _⟩
      · cases z1.unique (.item hpl rfl)
        exact ⟨x, hx, z2⟩
      · cases z1.unique (.item hpl rfl)
    have hno : NotYet d.fields pre i l := by
      obtain ⟨rs', l1', j1, j2⟩ := hnew x hx
      cases (ReadsAll.unique (strictItem_good hg.named pre) g1 j1).1
      have := g2.once
      rw [j2, (owners_insert xs ys i _ _ _).nodup_iff, ← e1] at this
      exact hnot.2 (List.nodup_cons.1 this).1
    refine ⟨hno, y, htk, ?_⟩
    have := key hno y htk
    rw [h'] at this
    cases this
    rfl
  · rintro ⟨hno, y, hy', rfl⟩
    exact key hno y hy'

/-! ## Structures as they are derived -/

/-- **C128.**  The same for a structure as it is derived, for its items in attributes, in braces and in parentheses after
a key. -/
theorem c128_items (d : StructDef V) (ha : d.Accepted) (ht : d.isTransparent = false) (hs : d.shape = .named)
    (hg : d.FieldsFine) (hat : d.andThens = []) (he : ∀ f ∈ d.fields, f.item.EndsAlike)
    (hy : ∀ f ∈ d.fields, ∀ n sp, Tidy (f.item.named n sp)) (k : Span) {segs sp w wt} (hw : KeyToks segs sp w wt)
    (n1 : NoComma wt) {f : Field V} {i : Nat} (ho : Owns d.fields [] (keyString segs) f i)
    (hfl : ∀ f ∈ d.fields, f.flatParsable = true → PlainIgnores (fun key => key = keyString segs)
      (f.flatCall [] k (Field.fieldNames d.fields))) (vs vs' : List V) :
    (∀ sc l l', InsertedAll w sc l l' → Fresh l → (d.dict.inline (.named k) l).1 = .ok vs →
      ((d.dict.inline (.named k) l').1 = .ok vs' ↔ NotYet d.fields [] i l ∧ ∃ y, TakesAlone f sc sp wt y ∧ vs' = vs.set i y)) ∧
    ∀ ts ts', Inserted w ts ts' → ∀ a b rest sc,
      ((d.dict.parse (.named k) ⟨.group .brace ts a b :: rest, sc, none⟩).1 = .ok vs →
        ((d.dict.parse (.named k) ⟨.group .brace ts' a b :: rest, sc, none⟩).1 = .ok vs' ↔
          NotYet d.fields [] i [⟨ts, b, none⟩] ∧ ∃ y, TakesAlone f b sp wt y ∧ vs' = vs.set i y)) ∧
      ∀ n, (d.dict.named n k ⟨.group .paren ts a b :: rest, sc, none⟩).1 = .ok vs →
        ((d.dict.named n k ⟨.group .paren ts' a b :: rest, sc, none⟩).1 = .ok vs' ↔
          NotYet d.fields [] i [⟨ts, b, none⟩] ∧ ∃ y, TakesAlone f b sp wt y ∧ vs' = vs.set i y) := by
  have hgood : FieldsGood d.fields :=
    ⟨fun f hf _ => (hg.item f hf).named, fun f hf => (hg.item f hf).missing, hg.flat hs⟩
  have hi : ∀ mode, d.dict.inline mode = d.flatNamed.parse mode [] (!d.acceptsAll) := by
    intro mode
    simp only [StructDef.dict, ht, hs]
    rfl
  have hres : ∀ l ws, (d.flatNamed.parse (.named k) [] (!d.acceptsAll) l).1 = .ok ws ↔
      (namedFlat d.data (Field.fieldNames d.fields) (.named k) [] (!d.acceptsAll) l).1 = .ok ws := by
    intro l ws
    have h0 : (d.flatNamed.parse (.named k) [] (!d.acceptsAll) l).1 =
      runAndThens d.andThens (namedFlat d.data (Field.fieldNames d.fields) (.named k) [] (!d.acceptsAll) l).1 := rfl
    rw [h0, hat]
    cases (namedFlat d.data (Field.fieldNames d.fields) (.named k) [] (!d.acceptsAll) l).1 with
    | ok x => exact Iff.rfl
    | err e => exact ⟨fun h => (by cases h), fun h => (by cases h)⟩
    | panic => exact ⟨fun h => (by cases h), fun h => (by cases h)⟩
  have hmain : ∀ sc l l', InsertedAll w sc l l' → Fresh l →
      (d.flatNamed.parse (.named k) [] (!d.acceptsAll) l).1 = .ok vs →
      ((d.flatNamed.parse (.named k) [] (!d.acceptsAll) l').1 = .ok vs' ↔ NotYet d.fields [] i l ∧ ∃ y, TakesAlone f sc sp wt y ∧ vs' = vs.set i y) := by
    intro sc l l' hb hl h
    rw [hres]
    exact c128_struct d.data ha.fields ht hgood he hy (Field.fieldNames d.fields) k [] (!d.acceptsAll) hw n1 ho
      (fun f hf hp => c124_every_flat (hfl f hf hp)) hb hl ((hres _ _).1 h) vs'
  have hwhole : Whole (d.flatNamed.parse (.named k) [] (!d.acceptsAll)) := by
    refine (namedFlat_whole d.data hgood (Field.fieldNames d.fields) k [] _ fun f hf hp =>
      (hfl f hf hp).whole).mapped ?_
    intro r y h
    cases r with
    | ok x => exact ⟨x, rfl⟩
    | err e => cases h
    | panic => cases h
  have hin : ∀ dl ts a b rest sc ws,
      (parseDelimitedMetaItem dl (fun mode => d.flatNamed.parse mode [] (!d.acceptsAll)) (.named k)
        ⟨.group dl ts a b :: rest, sc, none⟩).1 = .ok ws ↔
      (d.flatNamed.parse (.named k) [] (!d.acceptsAll) [⟨ts, b, none⟩]).1 = .ok ws := fun dl ts a b rest sc ws =>
    brackets_iff (d.flatNamed_good ha ht hs hg _ _ _) fun l' h => hwhole _ _ _ h
  have hone : ∀ dl ts ts', Inserted w ts ts' → ∀ a b rest sc,
      (parseDelimitedMetaItem dl (fun mode => d.flatNamed.parse mode [] (!d.acceptsAll)) (.named k)
        ⟨.group dl ts a b :: rest, sc, none⟩).1 = .ok vs →
      ((parseDelimitedMetaItem dl (fun mode => d.flatNamed.parse mode [] (!d.acceptsAll)) (.named k)
        ⟨.group dl ts' a b :: rest, sc, none⟩).1 = .ok vs' ↔ NotYet d.fields [] i [⟨ts, b, none⟩] ∧ ∃ y, TakesAlone f b sp wt y ∧ vs' = vs.set i y) := by
    intro dl ts ts' hb a b rest sc h
    rw [hin]
    exact hmain b [⟨ts, b, none⟩] [⟨ts', b, none⟩] (.here hb) (.single rfl) ((hin _ _ _ _ _ _ _).1 h)
  refine ⟨fun sc l l' hb hl => by rw [hi]; exact hmain sc l l' hb hl,
    fun ts ts' hb a b rest sc => ⟨fun h1 => ?_, fun n h1 => ?_⟩⟩
  · have hd : d.dict.parse (.named k) = parseDelimitedMetaItem .brace
        (fun mode => d.flatNamed.parse mode [] (!d.acceptsAll)) (.named k) := by
      simp only [StructDef.dict, ht, hs]
      rfl
    rw [hd] at h1 ⊢
    exact hone .brace ts ts' hb a b rest sc h1
  · have hd : ∀ ts, d.dict.named n k ⟨.group .paren ts a b :: rest, sc, none⟩ = parseDelimitedMetaItem .paren
        (fun mode => d.flatNamed.parse mode [] (!d.acceptsAll)) (.named k) ⟨.group .paren ts a b :: rest, sc, none⟩ := by
      intro ts
      simp only [StructDef.dict, ht, hs]
      rfl
    rw [hd] at h1 ⊢
    exact hone .paren ts ts' hb a b rest sc h1

/-! ## Concrete cases -/

theorem PlainIgnores.mono {P Q : Str → Prop} (hPQ : ∀ key, Q key → P key) {α : Type} {q : M (List Stream) α}
    (h : PlainIgnores P q) : PlainIgnores Q q := by
  induction h with
  | appendSeq d names h1 h2 h3 => exact .appendSeq d names h1 h2 fun k hk => h3 k (hPQ k hk)
  | appendSet d names h1 h2 h3 => exact .appendSet d names h1 h2 fun k hk => h3 k (hPQ k hk)
  | rest kd keyStr vd exclude h1 h2 h3 h4 h5 h6 =>
    exact .rest kd keyStr vd exclude h1 h2 h3 h4 h5 fun k hk => h6 k (hPQ k hk)
  | struct d k pre validate h1 h2 h3 _ ih =>
    exact .struct d k pre validate h1 h2 ⟨fun key hk => h3.1 key (hPQ key hk), fun key hk => h3.2 key (hPQ key hk)⟩ ih
  | embed f _ ih => exact .embed f ih

omit [Env] in
theorem comma_split {u u' r r' : List Tok} {c c' : Tok} (hu : NoComma u) (hu' : NoComma u') (hc : Comma c) (hc' : Comma c')
    (h : u ++ c :: r = u' ++ c' :: r') : u = u' ∧ r = r' := by
  induction u generalizing u' with
  | nil =>
    cases u' with
    | nil => exact ⟨rfl, (List.cons.inj h).2⟩
    | cons t u' =>
      cases h
      exact absurd hc (hu' _ List.mem_cons_self)
  | cons t u ih =>
    cases u' with
    | nil =>
      cases h
      exact absurd hc' (hu _ List.mem_cons_self)
    | cons t' u' =>
      obtain ⟨rfl, h1⟩ := List.cons.inj h
      obtain ⟨rfl, e⟩ := ih (fun x hx => hu x (List.mem_cons_of_mem _ hx)) (fun x hx => hu' x (List.mem_cons_of_mem _ hx)) h1
      exact ⟨rfl, e⟩

omit [Env] in
theorem ItemOf.first_or {v u r : List Tok} {c : Tok} (hu : NoComma u) (hc : Comma c) (hv : NoComma v)
    (h : ItemOf v (u ++ c :: r)) : v = u ∨ ItemOf v r := by
  generalize hts : u ++ c :: r = ts at h
  cases h with
  | last =>
    subst hts
    exact absurd hc (hv c (by simp))
  | here hc' => exact .inl (comma_split hv hu hc' hc hts.symm).1
  | next hu' hc' h =>
    rw [(comma_split hu hu' hc hc' hts).2]
    exact .inr h

omit [Env] in
theorem ItemOf.only {v u : List Tok} (hu : NoComma u) (h : ItemOf v u) : v = u := by
  cases h with
  | last => rfl
  | here hc => exact absurd hc (hu _ (by simp))
  | next _ hc _ => exact absurd hc (hu _ (by simp))

/-- C128: the conditions are met for `omittable` of C126 (see also `omittable_meets`), with `p, q` and
`p, a = false, q`. -/
example (k : Span) : (∀ f ∈ omittable.fields, f.flatParsable = true → PlainIgnores
      (fun key => key = keyString [['a']]) (f.flatCall [] k (Field.fieldNames omittable.fields))) ∧
    KeyToks [['a']] 3 [.ident ['a'] 3, .punct '=' false 6, .ident "false".toList 7]
      [.punct '=' false 6, .ident "false".toList 7] ∧
    NoComma [.punct '=' false 6, .ident "false".toList 7] ∧
    (∃ f, Owns omittable.fields [] (keyString [['a']]) f 0 ∧
      TakesAlone f 9 3 [.punct '=' false 6, .ident "false".toList 7] [false]) ∧
    NotYet omittable.fields [] 0 [⟨[.ident ['p'] 1, .punct ',' false 2, .ident ['q'] 5], 9, none⟩] ∧
    Inserted [.ident ['a'] 3, .punct '=' false 6, .ident "false".toList 7]
      [.ident ['p'] 1, .punct ',' false 2, .ident ['q'] 5]
      [.ident ['p'] 1, .punct ',' false 2, .ident ['a'] 3, .punct '=' false 6, .ident "false".toList 7, .punct ',' false 4,
        .ident ['q'] 5] := by
  obtain ⟨_, _, _, _, _, _, _, _, h9, _⟩ := omittable_meets k
  refine ⟨fun f hf hp => (h9 f hf hp).mono fun key hk => .inl hk,
    .mk (pt := [.ident ['a'] 3]) (.plain (.one _ _)) (by simp [StartsColon2]), by simp [NoComma, Comma],
    ⟨{ plainField ['a'] (boolDict.map fun b => [b]) with idents := [['a'], ['b']], default := some [] },
      ⟨['a'], rfl, rfl, ⟨rfl, rfl⟩, by simp, fun j g hj => absurd hj (Nat.not_lt_zero j)⟩, [false], rfl, rfl⟩, ?_,
    .next (u := [.ident ['p'] 1]) (by simp [NoComma, Comma]) ⟨_, _, rfl⟩
      (.first (w := [.ident ['a'] 3, .punct '=' false 6, .ident "false".toList 7]) ⟨_, _, rfl⟩)⟩
  have hown : ∀ key f, Owns omittable.fields [] key f 0 → key = ['a'] ∨ key = ['b'] := by
    rintro key f ⟨m, hm, h1, _, h3, _⟩
    rw [List.nil_append] at hm
    cases h1
    simpa [hm] using h3
  have hp : ∀ c sp, KeyToks [[c]] sp [.ident [c] sp] [] := fun c sp =>
    .mk (pt := [.ident [c] sp]) (.plain (.one _ _)) (by simp [StartsColon2])
  intro s hs segs sp v vt hk hn hi f ho
  cases List.mem_singleton.1 hs
  have hc := hk.noComma hn
  have hv : v = [.ident ['p'] 1] ∨ v = [.ident ['q'] 5] := by
    rcases ItemOf.first_or (u := [.ident ['p'] 1]) (by simp [NoComma, Comma]) ⟨_, _, rfl⟩ hc hi with h | h
    · exact .inl h
    · exact .inr (h.only (by simp [NoComma, Comma]))
  rcases hv with rfl | rfl
  · have := hk.key_eq (hp 'p' 1)
    rw [this] at ho
    rcases hown _ _ ho with h | h <;> cases h
  · have := hk.key_eq (hp 'q' 5)
    rw [this] at ho
    rcases hown _ _ ho with h | h <;> cases h

/-- C128: `{p, q}` is accepted, `a = false` can be added, and `b` not as well; `a = p` cannot be added. -/
example : letI : Env := ⟨fun a _ => some a, fun _ _ => 0, 1⟩
    ((omittable.dict.parse (.named 0) ⟨[.group .brace [.ident ['p'] 1, .punct ',' false 2,
      .ident ['q'] 5] 8 9], 0, none⟩).1 matches .ok [[], [true, true], []]) ∧
    ((omittable.dict.parse (.named 0) ⟨[.group .brace [.ident ['p'] 1, .punct ',' false 2, .ident ['a'] 3,
      .punct '=' false 6, .ident "false".toList 7, .punct ',' false 4, .ident ['q'] 5] 8 9], 0, none⟩).1 matches
      .ok [[false], [true, true], []]) ∧
    ((omittable.dict.parse (.named 0) ⟨[.group .brace [.ident ['b'] 1, .punct ',' false 2, .ident ['p'] 1,
      .punct ',' false 2, .ident ['a'] 3, .punct '=' false 6, .ident "false".toList 7, .punct ',' false 4, .ident ['q'] 5]
      8 9], 0, none⟩).1 matches .err _) ∧
    ((omittable.dict.parse (.named 0) ⟨[.group .brace [.ident ['p'] 1, .punct ',' false 2, .ident ['a'] 3,
      .punct '=' false 6, .ident ['p'] 7, .punct ',' false 4, .ident ['q'] 5] 8 9], 0, none⟩).1 matches .err _) := by
  decide +kernel

end
end Deluxe
