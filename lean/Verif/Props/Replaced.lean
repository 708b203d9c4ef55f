import Verif.Props.Omitted
/-!
# C127: an item can be exchanged for any other item of its field that can be read
-/
namespace Deluxe

/-! ## Specification -/

/-- The same items, except that one of them, `v`, is `w` instead. -/
inductive Swapped (v w : List Tok) : List Tok → List Tok → Prop
  | last : Swapped v w v w
  | here {c r} : Comma c → Swapped v w (v ++ c :: r) (w ++ c :: r)
  | next {u c r r'} : NoComma u → Comma c → Swapped v w r r' → Swapped v w (u ++ c :: r) (u ++ c :: r')

/-- The same for several lists, such as those of several attributes; `sc` is the span at the end of that of the item. -/
inductive SwappedAll (v w : List Tok) (sc : Span) : List Stream → List Stream → Prop
  | here {ts ts' u l} : Swapped v w ts ts' → SwappedAll v w sc (⟨ts, sc, u⟩ :: l) (⟨ts', sc, u⟩ :: l)
  | next {s l l'} : SwappedAll v w sc l l' → SwappedAll v w sc (s :: l) (s :: l')

section
variable [Env] {V : Type}

/-- The tokens after a key, and nothing after them, are read as a value `x` of the field, of which its functions make
`y`. -/
def TakesAlone (f : Field V) (sc sp : Span) (vt : List Tok) (y : V) : Prop :=
  ∃ x, f.item.named (f.idents.headD []) sp ⟨vt, sc, none⟩ = (.ok x, ⟨[], sc, none⟩) ∧ runTransforms f.transforms x = .ok y

/-! ## Items -/

omit [Env] in
theorem Swapped.symm {v w ts ts' : List Tok} (h : Swapped v w ts ts') : Swapped w v ts' ts := by
  induction h with
  | last => exact .last
  | here hc => exact .here hc
  | next hu hc _ ih => exact .next hu hc ih

omit [Env] in
theorem SwappedAll.symm {v w : List Tok} {sc : Span} {l l' : List Stream} (h : SwappedAll v w sc l l') :
    SwappedAll w v sc l' l := by
  induction h with
  | here h => exact .here h.symm
  | next _ ih => exact .next ih

omit [Env] in
theorem SwappedAll.fresh {v w : List Tok} {sc : Span} {l l' : List Stream} (h : SwappedAll v w sc l l') (hl : Fresh l) :
    Fresh l' := by
  induction h with
  | @here ts _ u l h =>
    intro s hs
    rcases List.mem_cons.1 hs with rfl | hs
    · exact hl ⟨ts, sc, u⟩ List.mem_cons_self
    · exact hl s (List.mem_cons_of_mem _ hs)
  | next _ ih =>
    intro s hs
    rcases List.mem_cons.1 hs with rfl | hs
    · exact hl _ List.mem_cons_self
    · exact ih (fun t ht => hl t (List.mem_cons_of_mem _ ht)) s hs

/-- Both lists are the same without the item. -/
theorem Swapped.base {P : Str → Prop} {segs segs' sp sp' v vt w wt} (hv : KeyToks segs sp v vt) (hw : KeyToks segs' sp' w wt)
    (h1 : P (keyString segs)) (h2 : P (keyString segs')) (n1 : NoComma vt) (n2 : NoComma wt) {ts ts' : List Tok}
    (h : Swapped v w ts ts') : ∃ b, Dropped P ts b ∧ Dropped P ts' b := by
  induction h with
  | last => exact ⟨[], .last hv h1 n1, .last hw h2 n2⟩
  | here hc => exact ⟨_, .more hv h1 n1 hc (.same _), .more hw h2 n2 hc (.same _)⟩
  | next hu hc _ ih =>
    obtain ⟨b, i1, i2⟩ := ih
    exact ⟨_, .keep hu hc i1, .keep hu hc i2⟩

theorem DroppedAll.refl (P : Str → Prop) (l : List Stream) : DroppedAll P l l := by
  induction l with
  | nil => exact .nil
  | cons s l ih => exact .cons (.same _) ih

theorem SwappedAll.base {P : Str → Prop} {segs segs' sp sp' v vt w wt} (hv : KeyToks segs sp v vt)
    (hw : KeyToks segs' sp' w wt) (h1 : P (keyString segs)) (h2 : P (keyString segs')) (n1 : NoComma vt) (n2 : NoComma wt)
    {sc : Span} {l l' : List Stream} (h : SwappedAll v w sc l l') : ∃ b, DroppedAll P l b ∧ DroppedAll P l' b := by
  induction h with
  | here h =>
    obtain ⟨b, i1, i2⟩ := h.base hv hw h1 h2 n1 n2
    exact ⟨_, .cons i1 (.refl _ _), .cons i2 (.refl _ _)⟩
  | next _ ih =>
    obtain ⟨b, i1, i2⟩ := ih
    exact ⟨_, .cons (.same _) i1, .cons (.same _) i2⟩

omit [Env] in
/-- What was read up to the end or a comma is read alone, and in front of anything else. -/
theorem EndsAlike.alone {β : Type} {p : M Stream β} (he : EndsAlike p) (ht : Tidy p) {v rest : List Tok} {sc : Span}
    (hv : NoComma v) (hb : Boundary rest) {b : β} {s : Stream} (h : p ⟨v ++ rest, sc, none⟩ = (.ok b, s))
    (hs : s.toks = rest) {rest' : List Tok} (hb' : Boundary rest') :
    p ⟨v ++ rest', sc, none⟩ = (.ok b, ⟨rest', sc, none⟩) := by
  rcases he v sc none hv with ⟨b', w, u', h1, h2⟩ | h2
  · have e := h2 rest hb
    have hu : u' = none := by
      have := (ht ⟨v ++ rest, sc, none⟩ rfl b' (by rw [e])).1
      rw [e] at this
      exact this
    subst hu
    rw [h] at e
    cases e
    have hw : w = [] := by
      simpa using hs
    subst hw
    exact h2 rest' hb'
  · exact absurd h (h2 rest hb _ _)

omit [Env] in
/-- How a list beginning with an item is read, and what it is without the item. -/
theorem Reads.front {β : Type} {p : M Stream β} (he : EndsAlike p) (ht : Tidy p) {v : List Tok} {sc : Span} {rs s1}
    (hv : NoComma v) {c : Tok} {r : List Tok} (hc : Comma c) (hr : Reads p ⟨v ++ c :: r, sc, none⟩ rs none s1) :
    ∃ b x rs', rs = (b, x) :: rs' ∧ Reads p ⟨r, sc, none⟩ rs' none s1 ∧
      ∀ rest, Boundary rest → p ⟨v ++ rest, sc, none⟩ = (.ok b, ⟨rest, sc, none⟩) := by
  obtain ⟨b, x, rs1, s2, h1, _, rfl, _, h4⟩ := Reads.first he ht hv (by simp) (.inr ⟨_, _, rfl, hc⟩) hr
  refine ⟨b, x, rs1, rfl, h4 _ _ rfl hc, fun rest hb => he.alone ht hv (.inr ⟨_, _, rfl, hc⟩) h1 ?_ hb⟩
  rcases he v sc none hv with ⟨b', w, u', g1, g2⟩ | g2
  · have e := g2 (c :: r) (.inr ⟨_, _, rfl, hc⟩)
    rw [h1] at e
    cases e
    cases hr with
    | last h0 hi hl =>
      rw [h1] at hi
      cases hi
      simp at hl
    | more h0 hi hl hc' _ =>
      rw [h1] at hi
      cases hi
      simpa using (left_comma (hv.suffix g1) hc' hl).1
  · exact absurd h1 (g2 _ (.inr ⟨_, _, rfl, hc⟩) _ _)

omit [Env] in
/-- The items read from a list, and those with another item in the place of one of them. -/
theorem Swapped.reads {β : Type} {p : M Stream β} (he : EndsAlike p) (ht : Tidy p) {v w : List Tok} (hv : NoComma v)
    (hne : v ≠ []) (hne' : w ≠ []) (hw : NoComma w) {ts ts' : List Tok} (h : Swapped v w ts ts') {sc : Span} {rs s1}
    (hr : Reads p ⟨ts, sc, none⟩ rs none s1) :
    ∃ xs b ys, rs.map (·.1) = xs ++ b :: ys ∧ p ⟨v, sc, none⟩ = (.ok b, ⟨[], sc, none⟩) ∧
      ∀ b', p ⟨w, sc, none⟩ = (.ok b', ⟨[], sc, none⟩) →
        ∃ rs' s1', Reads p ⟨ts', sc, none⟩ rs' none s1' ∧ rs'.map (·.1) = xs ++ b' :: ys := by
  induction h generalizing rs s1 with
  | last =>
    have hr' : Reads p ⟨v ++ [], sc, none⟩ rs none s1 := by simpa using hr
    obtain ⟨b, x, rs1, s2, h1, _, rfl, h3, _⟩ := Reads.first he ht hv (by simpa using hne) (.inl rfl) hr'
    cases h3 rfl
    rw [List.append_nil] at h1
    have hs2 : s2 = ⟨[], sc, none⟩ := by
      rcases he v sc none hv with ⟨b', z, u', g1, g2⟩ | g2
      · have e := g2 [] (.inl rfl)
        simp only [List.append_nil] at e
        have hu : u' = none := by
          have := (ht ⟨v, sc, none⟩ rfl b' (by rw [e])).1
          rw [e] at this
          exact this
        subst hu
        rw [h1] at e
        cases e
        cases hr with
        | last h0 hi hl =>
          rw [h1] at hi
          cases hi
          simpa using hl
        | more h0 hi hl hc' _ =>
          rw [h1] at hi
          cases hi
          have := (left_comma (rest := []) (hv.suffix g1) hc' (by simpa using hl)).2
          cases this
      · have := g2 [] (.inl rfl) b s2
        simp only [List.append_nil] at this
        exact absurd h1 this
    subst hs2
    exact ⟨[], b, [], rfl, h1, fun b' hb' => ⟨_, _, .last hne' hb' rfl, rfl⟩⟩
  | @here c r hc =>
    obtain ⟨b, x, rs1, rfl, h2, h3⟩ := Reads.front he ht hv hc hr
    refine ⟨[], b, rs1.map (·.1), rfl, by simpa using h3 [] (.inl rfl), fun b' hb' => ?_⟩
    have := he.alone ht hw (.inl rfl) (by simpa using hb') rfl (rest' := c :: r) (.inr ⟨_, _, rfl, hc⟩)
    exact ⟨_, _, .more (by simp) this rfl hc h2, rfl⟩
  | next hu hc _ ih =>
    obtain ⟨b, x, rs1, rfl, h2, h3⟩ := Reads.front he ht hu hc hr
    obtain ⟨xs, b1, ys, i1, i2, i3⟩ := ih h2
    refine ⟨b :: xs, b1, ys, by simp [i1], i2, fun b' hb' => ?_⟩
    obtain ⟨rs', s1', j1, j2⟩ := i3 b' hb'
    exact ⟨_, _, .more (by simp) (h3 _ (.inr ⟨_, _, rfl, hc⟩)) rfl hc j1, by simp [j2]⟩

omit [Env] in
theorem SwappedAll.reads {β : Type} {p : M Stream β} (he : EndsAlike p) (ht : Tidy p) {v w : List Tok} (hv : NoComma v)
    (hne : v ≠ []) (hne' : w ≠ []) (hw : NoComma w) {sc : Span} {l l' : List Stream} (h : SwappedAll v w sc l l')
    (hl : Fresh l) {rs l1} (hr : ReadsAll p l rs none l1) :
    ∃ xs b ys, rs.map (·.1) = xs ++ b :: ys ∧ p ⟨v, sc, none⟩ = (.ok b, ⟨[], sc, none⟩) ∧
      ∀ b', p ⟨w, sc, none⟩ = (.ok b', ⟨[], sc, none⟩) →
        ∃ rs' l1', ReadsAll p l' rs' none l1' ∧ rs'.map (·.1) = xs ++ b' :: ys := by
  induction h generalizing rs l1 with
  | @here ts ts' u l h =>
    have hu : u = none := hl _ List.mem_cons_self
    subst hu
    cases hr with
    | cons h1 h2 =>
      obtain ⟨xs, b, ys, i1, i2, i3⟩ := h.reads he ht hv hne hne' hw h1
      refine ⟨xs, b, ys ++ _, by rw [List.map_append, i1, List.append_assoc, List.cons_append], i2, fun b' hb' => ?_⟩
      obtain ⟨rs', s1', j1, j2⟩ := i3 b' hb'
      exact ⟨_, _, .cons j1 h2, by rw [List.map_append, j2, List.append_assoc, List.cons_append]⟩
  | next _ ih =>
    cases hr with
    | cons h1 h2 =>
      obtain ⟨xs, b, ys, i1, i2, i3⟩ := ih (fun s hs => hl s (List.mem_cons_of_mem _ hs)) h2
      refine ⟨_ ++ xs, b, ys, by rw [List.map_append, i1, List.append_assoc], i2, fun b' hb' => ?_⟩
      obtain ⟨rs', s1', j1, j2⟩ := i3 b' hb'
      exact ⟨_, _, .cons h1 j1, by rw [List.map_append, j2, List.append_assoc]⟩

/-! ## Structures -/

omit [Env] in
theorem owners_swap (xs ys : List (SItem V)) (i : Nat) (n n' : Str) (sp sp' : Span) (x x' : Except SynErr V) :
    owners (xs ++ .field i n sp x :: ys) = owners (xs ++ .field i n' sp' x' :: ys) := by
  induction xs with
  | nil => rfl
  | cons a xs ih =>
    cases a with
    | field j m s y => simp only [List.cons_append, owners, ih]
    | other k s => simpa only [List.cons_append, owners] using ih

omit [Env] in
theorem given_swap (xs ys : List (SItem V)) (i j : Nat) (n n' : Str) (sp sp' : Span) (x x' : Except SynErr V) (h : j ≠ i) :
    given j (xs ++ .field i n sp x :: ys) = given j (xs ++ .field i n' sp' x' :: ys) := by
  induction xs with
  | nil => simp only [List.nil_append, given, if_neg (Ne.symm h)]
  | cons a xs ih =>
    cases a with
    | field j m s y => simp only [List.cons_append, given, ih]
    | other k s => simpa only [List.cons_append, given] using ih

/-- An item of a field, alone. -/
theorem strictItem_alone {fields : List (Field V)} {pre : Str} {segs sp v vt} (hk : KeyToks segs sp v vt) {f : Field V}
    {i : Nat} (ho : Owns fields pre (keyString segs) f i) (sc : Span) :
    strictItem fields pre ⟨v, sc, none⟩ = (f.item.named (f.idents.headD []) sp).map
      (fun x => .field i (f.idents.headD []) sp (.ok x)) ⟨vt, sc, none⟩ := by
  have h := keyed_key (β := SItem V) (fun key sp => match (stripPrefix pre key).bind (findArm fields) with
    | some (f, i) => (f.item.named (f.idents.headD []) sp).map fun v => .field i (f.idents.headD []) sp (.ok v)
    | none => skipItem (.other key sp)) hk (rest := []) (.inl rfl) sc none
  simp only [List.append_nil, (owner_some fields pre _ f i).2 ho] at h
  exact h

omit [Env] in
theorem M.map_read {σ α β : Type} {g : α → β} {m : M σ α} {s s' : σ} {b : β} (h : m.map g s = (.ok b, s')) :
    ∃ a, m s = (.ok a, s') ∧ g a = b := by
  unfold M.map at h
  rcases hm : m s with ⟨r, s1⟩
  rw [hm] at h
  cases r with
  | ok a =>
    cases h
    exact ⟨a, rfl, rfl⟩
  | err e => cases h
  | panic => cases h

/-- **C127.**  In a list of items that a structure accepts, let one item be exchanged for another of the same field.  The
new list is accepted if and only if the new item can be read on its own, and then only the value of this field is
another: what was read. -/
theorem c127_struct (d : Fields V) (ha : Accepted d) (ht : d.transparent = false) (hg : FieldsGood d.fields)
    (he : ∀ f ∈ d.fields, f.item.EndsAlike) (hy : ∀ f ∈ d.fields, ∀ n sp, Tidy (f.item.named n sp))
    (allowed : List Str) (k : Span) (pre : Str) (validate : Bool) {segs segs' sp sp' v vt w wt}
    (hv : KeyToks segs sp v vt) (hw : KeyToks segs' sp' w wt) (n1 : NoComma vt) (n2 : NoComma wt) {f : Field V} {i : Nat}
    (ho : Owns d.fields pre (keyString segs) f i) (ho' : Owns d.fields pre (keyString segs') f i)
    (hfl : ∀ f ∈ d.fields, f.flatParsable = true →
      Ignores (fun key => key = keyString segs ∨ key = keyString segs') (f.flatCall pre k allowed))
    {sc : Span} {l l' : List Stream} (hs : SwappedAll v w sc l l') (hl : Fresh l) {vs : List V}
    (h : (namedFlat d allowed (.named k) pre validate l).1 = .ok vs) (vs' : List V) :
    (namedFlat d allowed (.named k) pre validate l').1 = .ok vs' ↔ ∃ y, TakesAlone f sc sp' wt y ∧ vs' = vs.set i y := by
  have hl' := hs.fresh hl
  have hf1 : (if d.fields.any (·.flatParsable) then forkInputs l else l) = l := by
    rw [fork_fresh hl, ite_self]
  have hf2 : (if d.fields.any (·.flatParsable) then forkInputs l' else l') = l' := by
    rw [fork_fresh hl', ite_self]
  have hin := struct_iff_all d ha ht hg allowed k pre validate
  obtain ⟨rs, l1, h1, h2, h3, h4⟩ := (hin l vs).1 h
  rw [hf1] at h1
  have hends := strictItem_ends he pre
  have htidy := strictItem_tidy hy pre
  have hfi : d.fields[i]? = some f := ho.choose_spec.2.1
  have hpl : f.Plain := ho.choose_spec.2.2.1
  have hilt : i < vs.length := h3 ▸ (List.getElem?_eq_some_iff.1 hfi).1
  obtain ⟨xs, b, ys, e1, e2, e3⟩ := hs.reads hends htidy (hv.noComma n1) hv.nonempty hw.nonempty (hw.noComma n2) hl h1
  rw [strictItem_alone hv ho] at e2
  obtain ⟨x0, _, rfl⟩ := M.map_read e2
  have hout : ∀ j g, d.fields[j]? = some g → g.flatParsable = true →
      flatOut d.fields pre k allowed l g j = flatOut d.fields pre k allowed l' g j := by
    intro j g hj hp
    obtain ⟨b, b1, b2⟩ := hs.base (P := fun key => key = keyString segs ∨ key = keyString segs') hv hw (.inl rfl) (.inr rfl)
      n1 n2
    have hig := hfl g (List.mem_of_getElem? hj) hp
    unfold flatOut
    rw [fork_fresh hl, fork_fresh hl', ite_self, ite_self]
    exact (hig _ _ b1).trans (hig _ _ b2).symm
  have key : ∀ y, TakesAlone f sc sp' wt y → (namedFlat d allowed (.named k) pre validate l').1 = .ok (vs.set i y) := by
    rintro y ⟨x, hx, hy'⟩
    obtain ⟨rs', l1', j1, j2⟩ := e3 (.field i (f.idents.headD []) sp' (.ok x)) (by
      rw [strictItem_alone hw ho']
      simp only [M.map, hx]
      rfl)
    refine (hin l' _).2 ⟨rs', l1', by rw [hf2]; exact j1, ?_, by simpa using h3, ?_⟩
    · rw [j2]
      rw [e1] at h2
      refine ⟨by rw [owners_swap xs ys i _ _ sp' sp]; exact h2.once, fun j m s z hz => ?_, fun key s hz => ?_⟩
      · rcases List.mem_append.1 hz with hz | hz
        · exact h2.values j m s z (List.mem_append_left _ hz)
        · rcases List.mem_cons.1 hz with hz | hz
          · cases hz
            exact ⟨x, rfl⟩
          · exact h2.values j m s z (List.mem_append_right _ (List.mem_cons_of_mem _ hz))
      · refine h2.known key s ?_
        rcases List.mem_append.1 hz with hz | hz
        · exact List.mem_append_left _ hz
        · rcases List.mem_cons.1 hz with hz | hz
          · cases hz
          · exact List.mem_append_right _ (List.mem_cons_of_mem _ hz)
    · intro j g hj
      by_cases hji : j = i
      · subst hji
        rw [hfi] at hj
        cases hj
        refine ⟨y, by simp [hilt], .inl ⟨x, .item hpl ?_, hy'⟩⟩
        rw [j2]
        refine (given_iff ?_ _ _).2 ⟨_, _, List.mem_append_right _ List.mem_cons_self⟩
        rw [owners_swap xs ys j _ (f.idents.headD []) sp' sp _ (.ok x0), ← e1]
        exact h2.once
      · obtain ⟨z, z1, z2⟩ := h4 j g hj
        refine ⟨z, by rw [List.getElem?_set_ne (Ne.symm hji)]; exact z1, ?_⟩
        simp only [Holds] at z2 ⊢
        rw [j2, given_swap xs ys i j _ (f.idents.headD []) sp' sp _ (.ok x0) hji, ← e1]
        exact z2.flat_iff fun hp x hx => hout j g hj hp ▸ hx
  constructor
  · intro h'
    obtain ⟨rs2, l2, g1, g2, _, g4⟩ := (hin l' vs').1 h'
    rw [hf2] at g1
    obtain ⟨xs', b', ys', a1, a2, _⟩ := hs.symm.reads hends htidy (hw.noComma n2) hw.nonempty hv.nonempty (hv.noComma n1)
      hl' g1
    rw [strictItem_alone hw ho'] at a2
    obtain ⟨x, hx, rfl⟩ := M.map_read a2
    obtain ⟨y, _, hh⟩ := g4 i f hfi
    have hgi : given i (rs2.map (·.1)) = some (.ok x) := by
      rw [a1]
      refine (given_iff ?_ _ _).2 ⟨_, _, List.mem_append_right _ List.mem_cons_self⟩
      rw [← a1]
      exact g2.once
    simp only [Holds] at hh
    rw [hgi] at hh
    have htk : TakesAlone f sc sp' wt y := by
      rcases hh with ⟨z, z1, z2⟩ | ⟨z1, _⟩
      · cases z1.unique (.item hpl rfl)
        exact ⟨x, hx, z2⟩
      · cases z1.unique (.item hpl rfl)
    refine ⟨y, htk, ?_⟩
    have := key y htk
    rw [h'] at this
    cases this
    rfl
  · rintro ⟨y, hy', rfl⟩
    exact key y hy'

/-! ## Structures as they are derived -/

/-- **C127.**  The same for a structure as it is derived, for its items in attributes, in braces and in parentheses after
a key. -/
theorem c127_items (d : StructDef V) (ha : d.Accepted) (ht : d.isTransparent = false) (hs : d.shape = .named)
    (hg : d.FieldsFine) (hat : d.andThens = []) (he : ∀ f ∈ d.fields, f.item.EndsAlike)
    (hy : ∀ f ∈ d.fields, ∀ n sp, Tidy (f.item.named n sp)) (k : Span) {segs segs' sp sp' v vt w wt}
    (hv : KeyToks segs sp v vt) (hw : KeyToks segs' sp' w wt) (n1 : NoComma vt) (n2 : NoComma wt) {f : Field V} {i : Nat}
    (ho : Owns d.fields [] (keyString segs) f i) (ho' : Owns d.fields [] (keyString segs') f i)
    (hfl : ∀ f ∈ d.fields, f.flatParsable = true → PlainIgnores (fun key => key = keyString segs ∨ key = keyString segs')
      (f.flatCall [] k (Field.fieldNames d.fields))) (vs vs' : List V) :
    (∀ sc l l', SwappedAll v w sc l l' → Fresh l → (d.dict.inline (.named k) l).1 = .ok vs →
      ((d.dict.inline (.named k) l').1 = .ok vs' ↔ ∃ y, TakesAlone f sc sp' wt y ∧ vs' = vs.set i y)) ∧
    ∀ ts ts', Swapped v w ts ts' → ∀ a b rest sc,
      ((d.dict.parse (.named k) ⟨.group .brace ts a b :: rest, sc, none⟩).1 = .ok vs →
        ((d.dict.parse (.named k) ⟨.group .brace ts' a b :: rest, sc, none⟩).1 = .ok vs' ↔
          ∃ y, TakesAlone f b sp' wt y ∧ vs' = vs.set i y)) ∧
      ∀ n, (d.dict.named n k ⟨.group .paren ts a b :: rest, sc, none⟩).1 = .ok vs →
        ((d.dict.named n k ⟨.group .paren ts' a b :: rest, sc, none⟩).1 = .ok vs' ↔
          ∃ y, TakesAlone f b sp' wt y ∧ vs' = vs.set i y) := by
  have hgood : FieldsGood d.fields :=
    ⟨fun f hf _ => (hg.item f hf).named, fun f hf => (hg.item f hf).missing, hg.flat hs⟩
  have hi : ∀ mode, d.dict.inline mode = d.flatNamed.parse mode [] (!d.acceptsAll) := by
    intro mode
    simp only [StructDef.dict, ht, hs]
    rfl
  have hres : ∀ l ws, (d.flatNamed.parse (.named k) [] (!d.acceptsAll) l).1 = .ok ws ↔
      (namedFlat d.data (Field.fieldNames d.fields) (.named k) [] (!d.acceptsAll) l).1 = .ok ws := by
    intro l ws
    have h0 : (d.flatNamed.parse (.named k) [] (!d.acceptsAll) l).1 =
      runAndThens d.andThens (namedFlat d.data (Field.fieldNames d.fields) (.named k) [] (!d.acceptsAll) l).1 := rfl
    rw [h0, hat]
    cases (namedFlat d.data (Field.fieldNames d.fields) (.named k) [] (!d.acceptsAll) l).1 with
    | ok x => exact Iff.rfl
    | err e => exact ⟨fun h => (by cases h), fun h => (by cases h)⟩
    | panic => exact ⟨fun h => (by cases h), fun h => (by cases h)⟩
  have hmain : ∀ sc l l', SwappedAll v w sc l l' → Fresh l →
      (d.flatNamed.parse (.named k) [] (!d.acceptsAll) l).1 = .ok vs →
      ((d.flatNamed.parse (.named k) [] (!d.acceptsAll) l').1 = .ok vs' ↔ ∃ y, TakesAlone f sc sp' wt y ∧ vs' = vs.set i y) := by
    intro sc l l' hb hl h
    rw [hres]
    exact c127_struct d.data ha.fields ht hgood he hy (Field.fieldNames d.fields) k [] (!d.acceptsAll) hv hw n1 n2 ho ho'
      (fun f hf hp => c124_every_flat (hfl f hf hp)) hb hl ((hres _ _).1 h) vs'
  have hwhole : Whole (d.flatNamed.parse (.named k) [] (!d.acceptsAll)) := by
    refine (namedFlat_whole d.data hgood (Field.fieldNames d.fields) k [] _ fun f hf hp =>
      (hfl f hf hp).whole).mapped ?_
    intro r y h
    cases r with
    | ok x => exact ⟨x, rfl⟩
    | err e => cases h
    | panic => cases h
  have hin : ∀ dl ts a b rest sc ws,
      (parseDelimitedMetaItem dl (fun mode => d.flatNamed.parse mode [] (!d.acceptsAll)) (.named k)
        ⟨.group dl ts a b :: rest, sc, none⟩).1 = .ok ws ↔
      (d.flatNamed.parse (.named k) [] (!d.acceptsAll) [⟨ts, b, none⟩]).1 = .ok ws := fun dl ts a b rest sc ws =>
    brackets_iff (d.flatNamed_good ha ht hs hg _ _ _) fun l' h => hwhole _ _ _ h
  have hone : ∀ dl ts ts', Swapped v w ts ts' → ∀ a b rest sc,
      (parseDelimitedMetaItem dl (fun mode => d.flatNamed.parse mode [] (!d.acceptsAll)) (.named k)
        ⟨.group dl ts a b :: rest, sc, none⟩).1 = .ok vs →
      ((parseDelimitedMetaItem dl (fun mode => d.flatNamed.parse mode [] (!d.acceptsAll)) (.named k)
        ⟨.group dl ts' a b :: rest, sc, none⟩).1 = .ok vs' ↔ ∃ y, TakesAlone f b sp' wt y ∧ vs' = vs.set i y) := by
    intro dl ts ts' hb a b rest sc h
    rw [hin]
    exact hmain b [⟨ts, b, none⟩] [⟨ts', b, none⟩] (.here hb) (.single rfl) ((hin _ _ _ _ _ _ _).1 h)
  refine ⟨fun sc l l' hb hl => by rw [hi]; exact hmain sc l l' hb hl,
    fun ts ts' hb a b rest sc => ⟨fun h1 => ?_, fun n h1 => ?_⟩⟩
  · have hd : d.dict.parse (.named k) = parseDelimitedMetaItem .brace
        (fun mode => d.flatNamed.parse mode [] (!d.acceptsAll)) (.named k) := by
      simp only [StructDef.dict, ht, hs]
      rfl
    rw [hd] at h1 ⊢
    exact hone .brace ts ts' hb a b rest sc h1
  · have hd : ∀ ts, d.dict.named n k ⟨.group .paren ts a b :: rest, sc, none⟩ = parseDelimitedMetaItem .paren
        (fun mode => d.flatNamed.parse mode [] (!d.acceptsAll)) (.named k) ⟨.group .paren ts a b :: rest, sc, none⟩ := by
      intro ts
      simp only [StructDef.dict, ht, hs]
      rfl
    rw [hd] at h1 ⊢
    exact hone .paren ts ts' hb a b rest sc h1

/-! ## Concrete cases -/

/-- C127: the conditions are met for `omittable` of C126, with `p, b = t, q` and `p, a = false, q`. -/
example (k : Span) : (∀ f ∈ omittable.fields, f.flatParsable = true → PlainIgnores
      (fun key => key = keyString [['b']] ∨ key = keyString [['a']]) (f.flatCall [] k (Field.fieldNames omittable.fields))) ∧
    KeyToks [['b']] 3 [.ident ['b'] 3, .punct '=' false 6, .ident ['t'] 7] [.punct '=' false 6, .ident ['t'] 7] ∧
    KeyToks [['a']] 3 [.ident ['a'] 3, .punct '=' false 6, .ident "false".toList 7]
      [.punct '=' false 6, .ident "false".toList 7] ∧
    NoComma [.punct '=' false 6, .ident ['t'] 7] ∧ NoComma [.punct '=' false 6, .ident "false".toList 7] ∧
    (∃ f, Owns omittable.fields [] (keyString [['b']]) f 0 ∧ Owns omittable.fields [] (keyString [['a']]) f 0 ∧
      TakesAlone f 9 3 [.punct '=' false 6, .ident "false".toList 7] [false]) ∧
    Swapped [.ident ['b'] 3, .punct '=' false 6, .ident ['t'] 7]
      [.ident ['a'] 3, .punct '=' false 6, .ident "false".toList 7]
      [.ident ['p'] 1, .punct ',' false 2, .ident ['b'] 3, .punct '=' false 6, .ident ['t'] 7, .punct ',' false 4,
        .ident ['q'] 5]
      [.ident ['p'] 1, .punct ',' false 2, .ident ['a'] 3, .punct '=' false 6, .ident "false".toList 7, .punct ',' false 4,
        .ident ['q'] 5] := by
  obtain ⟨_, _, _, _, _, _, _, _, h9, _⟩ := omittable_meets k
  refine ⟨?_, .mk (pt := [.ident ['b'] 3]) (.plain (.one _ _)) (by simp [StartsColon2]),
    .mk (pt := [.ident ['a'] 3]) (.plain (.one _ _)) (by simp [StartsColon2]), by simp [NoComma, Comma],
    by simp [NoComma, Comma], ⟨{ plainField ['a'] (boolDict.map fun b => [b]) with idents := [['a'], ['b']], default := some [] },
      ⟨['b'], rfl, rfl, ⟨rfl, rfl⟩, by simp, fun j g hj => absurd hj (Nat.not_lt_zero j)⟩,
      ⟨['a'], rfl, rfl, ⟨rfl, rfl⟩, by simp, fun j g hj => absurd hj (Nat.not_lt_zero j)⟩, [false], rfl, rfl⟩,
    .next (u := [.ident ['p'] 1]) (by simp [NoComma, Comma]) ⟨_, _, rfl⟩
      (.here (v := [.ident ['b'] 3, .punct '=' false 6, .ident ['t'] 7]) ⟨_, _, rfl⟩)⟩
  have : (fun key => key = keyString [['b']] ∨ key = keyString [['a']]) = firstNames := by
    funext key
    simp only [firstNames, keyString]
    exact propext ⟨Or.symm, Or.symm⟩
  rw [this]
  exact h9

/-- C127: `{p, b, q}` is accepted, and `a = false` or `a = p` in the place of `b` is accepted or not as it can be read. -/
example : letI : Env := ⟨fun a _ => some a, fun _ _ => 0, 1⟩
    ((omittable.dict.parse (.named 0) ⟨[.group .brace [.ident ['p'] 1, .punct ',' false 2, .ident ['b'] 3, .punct ',' false 4,
      .ident ['q'] 5] 8 9], 0, none⟩).1 matches .ok [[true], [true, true], []]) ∧
    ((omittable.dict.parse (.named 0) ⟨[.group .brace [.ident ['p'] 1, .punct ',' false 2, .ident ['a'] 3,
      .punct '=' false 6, .ident "false".toList 7, .punct ',' false 4, .ident ['q'] 5] 8 9], 0, none⟩).1 matches
      .ok [[false], [true, true], []]) ∧
    ((omittable.dict.parse (.named 0) ⟨[.group .brace [.ident ['p'] 1, .punct ',' false 2, .ident ['a'] 3,
      .punct '=' false 6, .ident ['p'] 7, .punct ',' false 4, .ident ['q'] 5] 8 9], 0, none⟩).1 matches .err _) := by
  decide +kernel

end
end Deluxe
