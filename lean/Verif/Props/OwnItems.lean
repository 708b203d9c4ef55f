import Verif.Props.IgnoredEnum
import Verif.Props.TrailingFlat
import Verif.Lemmas.TidyTypes
/-!
# C125: the value of a field depends on its own items alone
-/
namespace Deluxe

/-! ## Specification -/

/-- `Others P ts vs`: the list `ts` consists of the items `vs`, in this order, and of items between them whose keys are
all among `P`.  Nothing is said about what follows these keys, except that it ends at the next comma. -/
inductive Others [Env] (P : Str → Prop) : List Tok → List (List Tok) → Prop
  | nil : Others P [] []
  | last {v} : NoComma v → v ≠ [] → Others P v [v]
  | more {v c r vs} : NoComma v → Comma c → Others P r vs → Others P (v ++ c :: r) (v :: vs)
  | otherLast {segs sp v vt} : KeyToks segs sp v vt → P (keyString segs) → NoComma vt → Others P v []
  | other {segs sp v vt c r vs} : KeyToks segs sp v vt → P (keyString segs) → NoComma vt → Comma c → Others P r vs →
      Others P (v ++ c :: r) vs

/-- Two lists with the same items apart from those whose keys are among `P`: these may be other ones, in other places,
with other values. -/
def SameBut [Env] (P : Str → Prop) (ts ts' : List Tok) : Prop := ∃ vs, Others P ts vs ∧ Others P ts' vs

/-- The same for several lists, such as those of several attributes. -/
inductive SameButAll [Env] (P : Str → Prop) : List Stream → List Stream → Prop
  | nil : SameButAll P [] []
  | cons {ts ts' sc l l'} : SameBut P ts ts' → SameButAll P l l' →
      SameButAll P (⟨ts, sc, none⟩ :: l) (⟨ts', sc, none⟩ :: l')

/-- A parser whose value, if there is one, does not depend on the items whose keys are among `P`. -/
def Blinkered [Env] (P : Str → Prop) {α : Type} (q : M (List Stream) α) : Prop :=
  ∀ l l' v v', SameButAll P l l' → (q l).1 = .ok v → (q l').1 = .ok v' → v = v'

/-! ## Items -/

section
variable [Env]

/-- A reader of items of which a view is taken that does not show the items whose keys are among `P`. -/
structure Overlooks (P : Str → Prop) {β γ : Type} (view : β → Option γ) (p : M Stream β) : Prop where
  ends : EndsAlike p
  tidy : Tidy p
  key : ∀ {segs sp v vt rest sc s' b}, KeyToks segs sp v vt → P (keyString segs) → NoComma vt → Boundary rest →
    p ⟨v ++ rest, sc, none⟩ = (.ok b, s') → view b = none

/-- What is shown of the items written in `vs`. -/
def shown {β γ : Type} (view : β → Option γ) (p : M Stream β) (sc : Span) (vs : List (List Tok)) : List γ :=
  vs.filterMap fun v => match (p ⟨v, sc, none⟩).1 with
    | .ok b => view b
    | _ => none

omit [Env] in
/-- How a list beginning with an item is read. -/
theorem Reads.first {β : Type} {p : M Stream β} (he : EndsAlike p) (ht : Tidy p) {v rest : List Tok} {sc : Span} {rs s1}
    (hv : NoComma v) (hne : v ++ rest ≠ []) (hb : Boundary rest) (hr : Reads p ⟨v ++ rest, sc, none⟩ rs none s1) :
    ∃ b x rs' s2, p ⟨v ++ rest, sc, none⟩ = (.ok b, s2) ∧ (p ⟨v, sc, none⟩).1 = .ok b ∧ rs = (b, x) :: rs' ∧
      (rest = [] → rs' = []) ∧ ∀ c r, rest = c :: r → Comma c → Reads p ⟨r, sc, none⟩ rs' none s1 := by
  rcases he v sc none hv with ⟨b, w, u', h1, h2⟩ | h2
  · have e := h2 rest hb
    have e0 := h2 [] (.inl rfl)
    simp only [List.append_nil] at e0
    have hu : u' = none := by
      have := (ht ⟨v ++ rest, sc, none⟩ rfl b (by rw [e])).1
      rw [e] at this
      exact this
    subst hu
    cases hr with
    | done h0 => exact absurd h0 hne
    | last h0 hi hl =>
      rw [e] at hi
      cases hi
      refine ⟨b, _, [], _, e, by rw [e0], rfl, fun _ => rfl, ?_⟩
      rintro c r rfl hc
      simp at hl
    | more h0 hi hl hc hrs =>
      rw [e] at hi
      cases hi
      obtain ⟨rfl, rfl⟩ := left_comma (hv.suffix h1) hc hl
      refine ⟨b, _, _, _, e, by rw [e0], rfl, (fun h => absurd h (by simp)), ?_⟩
      rintro c r h _
      cases h
      exact hrs
  · cases hr with
    | done h0 => exact absurd h0 hne
    | last h0 hi hl => exact absurd hi (h2 rest hb _ _)
    | more h0 hi hl hc hrs => exact absurd hi (h2 rest hb _ _)

/-- What is shown of a list is what is shown of its own items. -/
theorem Others.shows {P : Str → Prop} {β γ : Type} {view : β → Option γ} {p : M Stream β} (hp : Overlooks P view p)
    {ts : List Tok} {vs : List (List Tok)} (h : Others P ts vs) {sc : Span} {rs s1}
    (hr : Reads p ⟨ts, sc, none⟩ rs none s1) : (rs.map (·.1)).filterMap view = shown view p sc vs := by
  induction h generalizing rs s1 with
  | nil =>
    cases hr with
    | done => rfl
    | last h0 => exact absurd rfl h0
    | more h0 => exact absurd rfl h0
  | @last v hv hne =>
    rw [← List.append_nil v] at hr
    obtain ⟨b, x, rs', s2, _, h2, rfl, h3, _⟩ := Reads.first hp.ends hp.tidy hv (by simpa using hne) (.inl rfl) hr
    cases h3 rfl
    simp only [shown, List.filterMap_cons, List.map_cons, h2]
    rfl
  | more hv hc _ ih =>
    obtain ⟨b, x, rs', s2, _, h2, rfl, _, h4⟩ := Reads.first hp.ends hp.tidy hv (by simp) (.inr ⟨_, _, rfl, hc⟩) hr
    have := ih (h4 _ _ rfl hc)
    simp only [shown, List.filterMap_cons, List.map_cons, h2] at this ⊢
    rw [this]
  | @otherLast segs sp v vt hk hP hn =>
    rw [← List.append_nil v] at hr
    obtain ⟨b, x, rs', s2, h1, _, rfl, h3, _⟩ :=
      Reads.first hp.ends hp.tidy (hk.noComma hn) (by simpa using hk.nonempty) (.inl rfl) hr
    cases h3 rfl
    simp [shown, hp.key hk hP hn (.inl rfl) h1]
  | other hk hP hn hc _ ih =>
    obtain ⟨b, x, rs', s2, h1, _, rfl, _, h4⟩ :=
      Reads.first hp.ends hp.tidy (hk.noComma hn) (by simp) (.inr ⟨_, _, rfl, hc⟩) hr
    have := ih (h4 _ _ rfl hc)
    simpa [hp.key hk hP hn (.inr ⟨_, _, rfl, hc⟩) h1] using this

theorem SameBut.shows {P : Str → Prop} {β γ : Type} {view : β → Option γ} {p : M Stream β} (hp : Overlooks P view p)
    {ts ts' : List Tok} (h : SameBut P ts ts') {sc : Span} {rs rs' s1 s1'} (hr : Reads p ⟨ts, sc, none⟩ rs none s1)
    (hr' : Reads p ⟨ts', sc, none⟩ rs' none s1') :
    (rs.map (·.1)).filterMap view = (rs'.map (·.1)).filterMap view := by
  obtain ⟨vs, h1, h2⟩ := h
  rw [h1.shows hp hr, h2.shows hp hr']

theorem SameButAll.shows {P : Str → Prop} {β γ : Type} {view : β → Option γ} {p : M Stream β} (hp : Overlooks P view p)
    {l l' : List Stream} (h : SameButAll P l l') {rs rs' l1 l1'} (hr : ReadsAll p l rs none l1)
    (hr' : ReadsAll p l' rs' none l1') : (rs.map (·.1)).filterMap view = (rs'.map (·.1)).filterMap view := by
  induction h generalizing rs rs' l1 l1' with
  | nil =>
    cases hr
    cases hr'
    rfl
  | cons h1 _ ih =>
    cases hr with
    | cons a b =>
      cases hr' with
      | cons a' b' =>
        simp only [List.map_append, List.filterMap_append]
        rw [h1.shows hp a a', ih b b']

theorem SameButAll.fork {P : Str → Prop} {l l' : List Stream} (h : SameButAll P l l') :
    SameButAll P (forkInputs l) (forkInputs l') := by
  induction h with
  | nil => exact .nil
  | cons h1 _ ih => exact .cons h1 ih

omit [Env] in
theorem skipItem_tidy {β : Type} (b : β) : Tidy (skipItem b) := fun _ hs _ _ => ⟨hs, rfl⟩

theorem keyed_tidy {β : Type} {f : Str → Span → M Stream β} (hf : ∀ key sp, Tidy (f key sp)) : Tidy (keyed f) := by
  intro s hs b hb
  have h1 := parseAnyPath_tidy s hs
  simp only [keyed] at hb ⊢
  cases hp : parseAnyPath s with
  | mk r s2 =>
    rw [hp] at hb h1
    cases r with
    | ok path =>
      have h2 := h1 path rfl
      have h3 := hf _ _ s2 h2.1 b hb
      exact ⟨h3.1, h3.2.trans h2.2⟩
    | err e => simp at hb
    | panic => simp at hb

/-! ## `append` and `rest` -/

theorem ownItem_overlooks {α : Type} {P : Str → Prop} (names : List Str) {d : Dict α} (he : d.EndsAlike)
    (ht : ∀ n sp, Tidy (d.named n sp)) (h : ∀ k, P k → k ∉ names) : Overlooks P id (ownItem names d.named) where
  ends := ownItem_ends names he.named
  tidy := keyed_tidy fun key sp => by
    split
    · exact (ht _ _).map _
    · exact skipItem_tidy _
  key := by
    intro segs sp v vt rest sc s' b hk hP hn hb hr
    simp only [ownItem] at hr
    rw [keyed_key _ hk hb] at hr
    rw [if_neg (h _ hP)] at hr
    cases hr
    rfl

/-- **C125.**  A sequence with `append` depends on the items with its names alone. -/
theorem c125_append_sequence {α : Type} (d : Dict α) (hd : ∀ n sp, Good (d.named n sp)) (he : d.EndsAlike)
    (ht : ∀ n sp, Tidy (d.named n sp)) (names : List Str) {P : Str → Prop} (h : ∀ k, P k → k ∉ names) :
    Blinkered P (seqAppend d names) := by
  intro l l' v v' hs h1 h2
  obtain ⟨rs, h3, rfl, _⟩ := c26_only_sequence d hd names _ _ _ (Prod.ext h1 rfl)
  obtain ⟨rs', h4, rfl, _⟩ := c26_only_sequence d hd names _ _ _ (Prod.ext h2 rfl)
  exact hs.shows (ownItem_overlooks names he ht h) h3 h4

/-- **C125.**  So does a set with `append`. -/
theorem c125_append_set {α : Type} [DecidableEq α] (d : Dict α) (hd : ∀ n sp, Good (d.named n sp)) (he : d.EndsAlike)
    (ht : ∀ n sp, Tidy (d.named n sp)) (names : List Str) {P : Str → Prop} (h : ∀ k, P k → k ∉ names) :
    Blinkered P (setAppend d names) := by
  intro l l' v v' hs h1 h2
  obtain ⟨rs, h3, rfl, _⟩ := c26_only_set d hd names _ _ _ (Prod.ext h1 rfl)
  obtain ⟨rs', h4, rfl, _⟩ := c26_only_set d hd names _ _ _ (Prod.ext h2 rfl)
  exact hs.shows (ownItem_overlooks names he ht h) h3 h4

/-- **C125.**  A map with `rest` depends on the items with other names than those it is told to leave out. -/
theorem c125_rest {κ ν : Type} [DecidableEq κ] (kd : Dict κ) (keyStr : κ → Str) (vd : Dict ν)
    (hk : Good (kd.parse .unnamed)) (hv : ∀ n sp, Good (vd.named n sp)) (hke : kd.EndsAlike) (hve : vd.EndsAlike)
    (hk0 : ∀ rest sc u x s', Boundary rest → kd.parse .unnamed ⟨rest, sc, u⟩ ≠ (.ok x, s'))
    (htk : Tidy (kd.parse .unnamed)) (htv : ∀ n sp, Tidy (vd.named n sp)) (hkey : ReadsKeys kd keyStr)
    (exclude : List Str) {P : Str → Prop} (h : ∀ k, P k → k ∈ exclude) : Blinkered P (mapRest kd keyStr vd exclude) := by
  intro l l' v v' hs h1 h2
  obtain ⟨rs, h3, rfl, _⟩ := c27_only_entries kd keyStr vd hk hv exclude _ _ _ (Prod.ext h1 rfl)
  obtain ⟨rs', h4, rfl, _⟩ := c27_only_entries kd keyStr vd hk hv exclude _ _ _ (Prod.ext h2 rfl)
  refine hs.shows ⟨restParser_ends (hke.parse _) hk0 hve.named exclude, ?_, ?_⟩ h3 h4
  · intro s hs b hb
    have h5 := htk s hs
    simp only [restParser] at hb ⊢
    cases hp : kd.parse .unnamed s with
    | mk r s2 =>
      rw [hp] at hb h5
      cases r with
      | ok key =>
        have h6 := h5 key rfl
        simp only at hb ⊢
        split
        · exact h6
        · rename_i hx
          rw [if_neg hx] at hb
          have h7 := ((htv _ _).map _) s2 h6.1 b hb
          exact ⟨h7.1, h7.2.trans h6.2⟩
      | err e => simp at hb
      | panic => simp at hb
  · intro segs sp v vt rest sc s' b h5 hP hn hb hr
    obtain ⟨key, e1, e2⟩ := hkey sc none h5 hb
    simp only [restParser, e1, e2, if_pos (h _ hP)] at hr
    cases hr
    rfl

/-! ## Structures -/

variable {V : Type}

/-- The value of an item of the field at position `i`. -/
def SItem.at (i : Nat) : SItem V → Option (Except SynErr V)
  | .field j _ _ x => if j = i then some x else none
  | .other _ _ => none

omit [Env] in
theorem given_head (i : Nat) (bs : List (SItem V)) : given i bs = (bs.filterMap (SItem.at i)).head? := by
  induction bs with
  | nil => rfl
  | cons b bs ih =>
    cases b with
    | field j n sp x =>
      by_cases h : j = i
      · simp [given, SItem.at, h]
      · simp [given, SItem.at, h, ih]
    | other k sp => exact ih

/-- The names of the field at position `i` are not among `P`. -/
def NotNamed (fields : List (Field V)) (pre : Str) (P : Str → Prop) (i : Nat) : Prop :=
  ∀ key, P key → ∀ f, ¬ Owns fields pre key f i

theorem strictItem_overlooks {fields : List (Field V)} (he : ∀ f ∈ fields, f.item.EndsAlike)
    (ht : ∀ f ∈ fields, ∀ n sp, Tidy (f.item.named n sp)) (pre : Str) {P : Str → Prop} {i : Nat}
    (h : NotNamed fields pre P i) : Overlooks P (SItem.at i) (strictItem fields pre) where
  ends := strictItem_ends he pre
  tidy := keyed_tidy fun key sp => by
    split
    · rename_i f j h
      exact (ht f ((owner_some _ _ _ _ _).1 h).mem.1 _ _).map _
    · exact skipItem_tidy _
  key := by
    intro segs sp v vt rest sc s' b hk hP hn hb hr
    simp only [strictItem] at hr
    rw [keyed_key _ hk hb] at hr
    cases ho : (stripPrefix pre (keyString segs)).bind (findArm fields) with
    | none =>
      rw [ho] at hr
      cases hr
      rfl
    | some fj =>
      obtain ⟨f, j⟩ := fj
      have ho' := (owner_some _ _ _ _ _).1 ho
      have hji : j ≠ i := by
        rintro rfl
        exact h _ hP f ho'
      rw [ho] at hr
      simp only at hr
      generalize f.item.named (f.idents.headD []) sp = q at hr
      simp only [M.map] at hr
      rcases hq : q ⟨vt ++ rest, sc, none⟩ with ⟨r, s2⟩
      rw [hq] at hr
      cases r with
      | ok x =>
        simp only [Res.map, Prod.mk.injEq, Res.ok.injEq] at hr
        rw [← hr.1]
        simp [SItem.at, hji]
      | err e => simp [Res.map] at hr
      | panic => simp [Res.map] at hr

omit [Env] in
theorem Source.ok_unique {d : Fields V} {f : Field V} {g : Option (Except SynErr V)} {fl fl' ms : Res V} {b b' : Option V}
    (he : f.flatParsable = true → ∀ v v', fl = .ok v → fl' = .ok v' → v = v') (h : Source d f g fl ms b)
    (h' : Source d f g fl' ms b') : b = b' := by
  by_cases hf : f.flatParsable = true
  · by_cases h1 : ∃ v, fl = .ok v
    · by_cases h2 : ∃ v', fl' = .ok v'
      · obtain ⟨v, h1⟩ := h1
        obtain ⟨v', h2⟩ := h2
        rw [h.unique (.flat hf h1), h'.unique (.flat hf h2), he hf v v' h1 h2]
      · exact h.unique (h'.flat_iff fun _ v e => absurd ⟨v, e⟩ h2)
    · exact (h.flat_iff fun _ v e => absurd ⟨v, e⟩ h1).unique h'
  · exact (h.flat_iff fun h => absurd h hf).unique h'

omit [Env] in
theorem Ends.ok_unique {d : Fields V} {f : Field V} {g : Option (Except SynErr V)} {fl fl' ms : Res V} {i : Nat} {v v' : V}
    (he : f.flatParsable = true → ∀ v v', fl = .ok v → fl' = .ok v' → v = v') (h : Ends d f g fl ms i v)
    (h' : Ends d f g fl' ms i v') : v = v' := by
  rcases h with ⟨b, h1, h2⟩ | ⟨h1, t, h2, h3⟩
  · rcases h' with ⟨b', h4, h5⟩ | ⟨h4, _⟩
    · cases h1.ok_unique he h4
      rw [h2] at h5
      cases h5
      rfl
    · cases h1.ok_unique he h4
  · rcases h' with ⟨b', h4, _⟩ | ⟨h4, t', h5, h6⟩
    · cases h1.ok_unique he h4
    · rw [h2] at h5
      cases h5
      rw [h3] at h6
      cases h6
      rfl

/-- The items of a structure that was accepted, and what its fields are. -/
theorem struct_only (d : Fields V) (ha : Accepted d) (ht : d.transparent = false) (hg : FieldsGood d.fields)
    (allowed : List Str) (k : Span) (pre : Str) (validate : Bool) (l : List Stream) (vs : List V)
    (h : (namedFlat d allowed (.named k) pre validate l).1 = .ok vs) :
    ∃ rs l1, ReadsAll (strictItem d.fields pre) (if d.fields.any (·.flatParsable) then forkInputs l else l) rs none l1 ∧
      vs.length = d.fields.length ∧
      ∀ i f, d.fields[i]? = some f → ∃ v, vs[i]? = some v ∧ Holds d allowed pre k l (rs.map (·.1)) f i v := by
  obtain ⟨rs, fatal, l1, h1⟩ := ReadsAll.exists (structItem_good hg.named pre)
    (if d.fields.any (·.flatParsable) then forkInputs l else l)
  rw [namedFlat_ok d ha ht hg allowed (.named k) pre validate h1] at h
  obtain ⟨rfl, h2, h3, h4⟩ := h
  have h5 := h1.transfer (item' := strictItem d.fields pre) id SItem.Fine
    (fun s b s' => struct_strict d.fields pre s b s') rfl
    (fun x hx i name sp y hy => h2.values i name sp y (by rw [← hy]; exact List.mem_map_of_mem hx))
  exact ⟨_, l1, h5, h3, by rw [List.map_map]; exact h4⟩

/-- **C125.**  The value of a field of a structure with named fields does not depend on the items that are not its own:
if the structure is accepted with the ones and with the others, the field has the same value.  For a flattened field its
own items are those on which the value of its parser depends. -/
theorem c125_field (d : Fields V) (ha : Accepted d) (ht : d.transparent = false) (hg : FieldsGood d.fields)
    (he : ∀ f ∈ d.fields, f.item.EndsAlike) (hy : ∀ f ∈ d.fields, ∀ n sp, Tidy (f.item.named n sp))
    (allowed : List Str) (k : Span) (pre : Str) (validate : Bool) {P : Str → Prop} {i : Nat}
    (hP : NotNamed d.fields pre P i)
    (hfl : ∀ f, d.fields[i]? = some f → f.flatParsable = true → Blinkered P (f.flatCall pre k allowed))
    {l l' : List Stream} (hs : SameButAll P l l') {vs vs' : List V}
    (h : (namedFlat d allowed (.named k) pre validate l).1 = .ok vs)
    (h' : (namedFlat d allowed (.named k) pre validate l').1 = .ok vs') : vs[i]? = vs'[i]? := by
  obtain ⟨rs, l1, h1, h3, h4⟩ := struct_only d ha ht hg allowed k pre validate _ vs h
  obtain ⟨rs', l1', h1', h3', h4'⟩ := struct_only d ha ht hg allowed k pre validate _ vs' h'
  have hfrom : SameButAll P (if d.fields.any (·.flatParsable) then forkInputs l else l)
      (if d.fields.any (·.flatParsable) then forkInputs l' else l') := by
    split
    · exact hs.fork
    · exact hs
  have hgiven : given i (rs.map (·.1)) = given i (rs'.map (·.1)) := by
    rw [given_head, given_head, hfrom.shows (strictItem_overlooks he hy pre hP) h1 h1']
  cases hf : d.fields[i]? with
  | none =>
    have hl := List.getElem?_eq_none_iff.1 hf
    rw [List.getElem?_eq_none (h3 ▸ hl), List.getElem?_eq_none (h3' ▸ hl)]
  | some f =>
    obtain ⟨v, e1, e2⟩ := h4 i f hf
    obtain ⟨v', e1', e2'⟩ := h4' i f hf
    rw [e1, e1']
    simp only [Holds] at e2 e2'
    rw [hgiven] at e2
    refine congrArg some (e2.ok_unique (fun hp x x' hx hx' => ?_) e2')
    unfold flatOut at hx hx'
    split at hx <;> rename_i hc
    · rw [if_pos hc] at hx'
      exact hfl f hf hp _ _ x x' hs.fork hx hx'
    · rw [if_neg hc] at hx'
      exact hfl f hf hp _ _ x x' hs hx hx'

/-- **C125.**  So the value of a flattened structure does not depend on items that belong to none of its fields. -/
theorem c125_flattened (d : Fields V) (ha : Accepted d) (ht : d.transparent = false) (hg : FieldsGood d.fields)
    (he : ∀ f ∈ d.fields, f.item.EndsAlike) (hy : ∀ f ∈ d.fields, ∀ n sp, Tidy (f.item.named n sp))
    (allowed : List Str) (k : Span) (pre : Str) (validate : Bool) {P : Str → Prop}
    (hP : ∀ i, NotNamed d.fields pre P i)
    (hfl : ∀ f ∈ d.fields, f.flatParsable = true → Blinkered P (f.flatCall pre k allowed)) :
    Blinkered P (namedFlat d allowed (.named k) pre validate) := by
  intro l l' vs vs' hs h h'
  refine List.ext_getElem? fun i => c125_field d ha ht hg he hy allowed k pre validate (hP i) ?_ hs h h'
  exact fun f hf hp => hfl f (List.mem_of_getElem? hf) hp

/-! ## Structures as they are derived -/

theorem Blinkered.mapped {P : Str → Prop} {α β : Type} {q : M (List Stream) α} (h : Blinkered P q) {g : Res α → Res β}
    (hg : ∀ r y, g r = .ok y → ∃ x, r = .ok x) : Blinkered P (q.mapRes g) := by
  intro l l' y y' hs h1 h2
  simp only [M.mapRes] at h1 h2
  obtain ⟨x, e1⟩ := hg _ _ h1
  obtain ⟨x', e2⟩ := hg _ _ h2
  cases h l l' x x' hs e1 e2
  rw [e1] at h1
  rw [e2, h1] at h2
  cases h2
  rfl

/-- The parsers of `append`, `rest` and `flatten` fields that deluxe offers or derives, in any nesting, for which the
keys in question are none of their names. -/
inductive PlainOwn (P : Str → Prop) : {α : Type} → M (List Stream) α → Prop
  | appendSeq {α} (d : Dict α) (names : List Str) : (∀ n sp, Good (d.named n sp)) → d.EndsAlike →
      (∀ n sp, Tidy (d.named n sp)) → (∀ k, P k → k ∉ names) → PlainOwn P (seqAppend d names)
  | appendSet {α} [DecidableEq α] (d : Dict α) (names : List Str) : (∀ n sp, Good (d.named n sp)) → d.EndsAlike →
      (∀ n sp, Tidy (d.named n sp)) → (∀ k, P k → k ∉ names) → PlainOwn P (setAppend d names)
  | rest {κ ν} [DecidableEq κ] (kd : Dict κ) (keyStr : κ → Str) (vd : Dict ν) (exclude : List Str) :
      Good (kd.parse .unnamed) → (∀ n sp, Good (vd.named n sp)) → kd.EndsAlike → vd.EndsAlike →
      (∀ rest sc u x s', Boundary rest → kd.parse .unnamed ⟨rest, sc, u⟩ ≠ (.ok x, s')) → Tidy (kd.parse .unnamed) →
      (∀ n sp, Tidy (vd.named n sp)) → ReadsKeys kd keyStr → (∀ k, P k → k ∈ exclude) →
      PlainOwn P (mapRest kd keyStr vd exclude)
  | struct {W} (d : StructDef W) (k : Span) (pre : Str) (validate : Bool) : d.Accepted → d.isTransparent = false →
      FieldsGood d.fields → (∀ f ∈ d.fields, f.item.EndsAlike) → (∀ f ∈ d.fields, ∀ n sp, Tidy (f.item.named n sp)) →
      (∀ i, NotNamed d.fields pre P i) →
      (∀ f ∈ d.fields, f.flatParsable = true → PlainOwn P (f.flatCall pre k (Field.fieldNames d.fields))) →
      PlainOwn P (d.flatNamed.parse (.named k) pre validate)
  | embed {α β} {q : M (List Stream) α} (f : α → β) : PlainOwn P q → PlainOwn P (q.mapRes (·.map f))

/-- **C125.**  The values of none of them depend on such items. -/
theorem c125_every_flat {P : Str → Prop} {α : Type} {q : M (List Stream) α} (h : PlainOwn P q) : Blinkered P q := by
  induction h with
  | appendSeq d names h1 h2 h3 h4 => exact c125_append_sequence d h1 h2 h3 names h4
  | appendSet d names h1 h2 h3 h4 => exact c125_append_set d h1 h2 h3 names h4
  | rest kd keyStr vd exclude h1 h2 h3 h4 h5 h6 h7 h8 h9 =>
    exact c125_rest kd keyStr vd h1 h2 h3 h4 h5 h6 h7 h8 exclude h9
  | struct d k pre validate h1 h2 h3 h4 h5 h6 _ ih =>
    refine (c125_flattened d.data h1.fields h2 h3 h4 h5 (Field.fieldNames d.fields) k pre validate h6 ih).mapped ?_
    intro r y h
    cases r with
    | ok x => exact ⟨x, rfl⟩
    | err e => cases h
    | panic => cases h
  | embed f _ ih =>
    refine ih.mapped ?_
    intro r y h
    cases r with
    | ok x => exact ⟨x, rfl⟩
    | err e => cases h
    | panic => cases h

/-- **C125.**  A field of a structure has the same value whatever the items that are not its own: as the items of an
attribute, in `name(…)` and in braces.  (Functions given with `and_then` on the structure see all fields.) -/
theorem c125_items (d : StructDef V) (ha : d.Accepted) (ht : d.isTransparent = false) (hs : d.shape = .named)
    (hg : d.FieldsFine) (hat : d.andThens = []) (he : ∀ f ∈ d.fields, f.item.EndsAlike)
    (hy : ∀ f ∈ d.fields, ∀ n sp, Tidy (f.item.named n sp)) (k : Span) {P : Str → Prop} {i : Nat}
    (hP : NotNamed d.fields [] P i)
    (hfl : ∀ f, d.fields[i]? = some f → f.flatParsable = true →
      PlainOwn P (f.flatCall [] k (Field.fieldNames d.fields)))
    (vs vs' : List V) :
    (∀ l l', SameButAll P l l' → (d.dict.inline (.named k) l).1 = .ok vs → (d.dict.inline (.named k) l').1 = .ok vs' →
      vs[i]? = vs'[i]?) ∧
    ∀ ts ts', SameBut P ts ts' → ∀ a b rest sc,
      ((d.dict.parse (.named k) ⟨.group .brace ts a b :: rest, sc, none⟩).1 = .ok vs →
        (d.dict.parse (.named k) ⟨.group .brace ts' a b :: rest, sc, none⟩).1 = .ok vs' → vs[i]? = vs'[i]?) ∧
      ∀ n, (d.dict.named n k ⟨.group .paren ts a b :: rest, sc, none⟩).1 = .ok vs →
        (d.dict.named n k ⟨.group .paren ts' a b :: rest, sc, none⟩).1 = .ok vs' → vs[i]? = vs'[i]? := by
  have hi : ∀ mode, d.dict.inline mode = d.flatNamed.parse mode [] (!d.acceptsAll) := by
    intro mode
    simp only [StructDef.dict, ht, hs]
    rfl
  have hres : ∀ l ws, (d.flatNamed.parse (.named k) [] (!d.acceptsAll) l).1 = .ok ws →
      (namedFlat d.data (Field.fieldNames d.fields) (.named k) [] (!d.acceptsAll) l).1 = .ok ws := by
    intro l ws h
    have h0 : (d.flatNamed.parse (.named k) [] (!d.acceptsAll) l).1 =
      runAndThens d.andThens (namedFlat d.data (Field.fieldNames d.fields) (.named k) [] (!d.acceptsAll) l).1 := rfl
    rw [h0, hat] at h
    cases hq : (namedFlat d.data (Field.fieldNames d.fields) (.named k) [] (!d.acceptsAll) l).1 with
    | ok x => rw [hq] at h; exact h
    | err e => rw [hq] at h; cases h
    | panic => rw [hq] at h; cases h
  have hmain : ∀ l l', SameButAll P l l' → (d.flatNamed.parse (.named k) [] (!d.acceptsAll) l).1 = .ok vs →
      (d.flatNamed.parse (.named k) [] (!d.acceptsAll) l').1 = .ok vs' → vs[i]? = vs'[i]? :=
    fun l l' hb h1 h2 => c125_field d.data ha.fields ht
      ⟨fun f hf _ => (hg.item f hf).named, fun f hf => (hg.item f hf).missing, hg.flat hs⟩ he hy
      (Field.fieldNames d.fields) k [] (!d.acceptsAll) hP (fun f hf hp => c125_every_flat (hfl f hf hp)) hb
      (hres _ _ h1) (hres _ _ h2)
  have hin : ∀ dl ts a b rest sc ws,
      (parseDelimitedMetaItem dl (fun mode => d.flatNamed.parse mode [] (!d.acceptsAll)) (.named k)
        ⟨.group dl ts a b :: rest, sc, none⟩).1 = .ok ws →
      (d.flatNamed.parse (.named k) [] (!d.acceptsAll) [⟨ts, b, none⟩]).1 = .ok ws := by
    intro dl ts a b rest sc ws h
    rw [delimited_iff (one_left (d.flatNamed_good ha ht hs hg (.named k) [] (!d.acceptsAll)) _)] at h
    obtain ⟨l', h, _⟩ := h
    rw [h]
  refine ⟨fun l l' hb => by rw [hi]; exact hmain l l' hb, fun ts ts' hb a b rest sc => ⟨fun h1 h2 => ?_, fun n h1 h2 => ?_⟩⟩
  · have hd : d.dict.parse (.named k) = parseDelimitedMetaItem .brace
        (fun mode => d.flatNamed.parse mode [] (!d.acceptsAll)) (.named k) := by
      simp only [StructDef.dict, ht, hs]
      rfl
    rw [hd] at h1 h2
    exact hmain [⟨ts, b, none⟩] [⟨ts', b, none⟩] (.cons hb .nil) (hin _ _ _ _ _ _ _ h1) (hin _ _ _ _ _ _ _ h2)
  · have hd : ∀ ts, d.dict.named n k ⟨.group .paren ts a b :: rest, sc, none⟩ = parseDelimitedMetaItem .paren
        (fun mode => d.flatNamed.parse mode [] (!d.acceptsAll)) (.named k) ⟨.group .paren ts a b :: rest, sc, none⟩ := by
      intro ts
      simp only [StructDef.dict, ht, hs]
      rfl
    rw [hd] at h1 h2
    exact hmain [⟨ts, b, none⟩] [⟨ts', b, none⟩] (.cons hb .nil) (hin _ _ _ _ _ _ _ h1) (hin _ _ _ _ _ _ _ h2)

omit [Env] in
/-- The items of a field that is neither flattened nor skipped are those with one of its names. -/
theorem notNamed_idents {fields : List (Field V)} {i : Nat} {f : Field V} (hf : fields[i]? = some f) :
    NotNamed fields [] (· ∉ f.idents) i := by
  rintro key hk g ⟨m, hm, h1, _, h3, _⟩
  rw [hf] at h1
  cases h1
  rw [hm] at hk
  exact hk h3

/-- **C125.**  In particular the value of a field that is not flattened depends on the items with its names alone. -/
theorem c125_names (d : StructDef V) (ha : d.Accepted) (ht : d.isTransparent = false) (hs : d.shape = .named)
    (hg : d.FieldsFine) (hat : d.andThens = []) (he : ∀ f ∈ d.fields, f.item.EndsAlike)
    (hy : ∀ f ∈ d.fields, ∀ n sp, Tidy (f.item.named n sp)) (k : Span) {i : Nat} {f : Field V}
    (hf : d.fields[i]? = some f) (hp : f.flatParsable = false) {l l' : List Stream} (hb : SameButAll (· ∉ f.idents) l l')
    (vs vs' : List V) (h : (d.dict.inline (.named k) l).1 = .ok vs) (h' : (d.dict.inline (.named k) l').1 = .ok vs') : vs[i]? = vs'[i]? :=
  (c125_items d ha ht hs hg hat he hy k (notNamed_idents hf) (fun g hg hp' => by
    rw [hf] at hg
    cases hg
    rw [hp] at hp'
    cases hp') vs vs').1 l l' hb h h'

omit [Env] in
/-- A flattened field has no items of its own apart from those of its parser. -/
theorem notNamed_flat {fields : List (Field V)} {i : Nat} {f : Field V} (hf : fields[i]? = some f)
    (hp : f.flatParsable = true) (pre : Str) (P : Str → Prop) : NotNamed fields pre P i := by
  rintro key _ g ⟨m, _, h1, h2, _⟩
  rw [hf] at h1
  cases h1
  simp [Field.flatParsable, h2.1] at hp

/-! ## Concrete cases -/

omit [Env] in
theorem boolItem_ends : (boolDict.map fun b => [b]).EndsAlike := ends_bool.map _

omit [Env] in
theorem boolItem_tidy (n : Str) (sp : Span) : Tidy ((boolDict.map fun b => [b]).named n sp) :=
  (boolDict_tidy'.named n sp).map _

/-- The names of the other fields. -/
def namesBeside (k : Str) : Prop := k = ['a'] ∨ k = ['b'] ∨ k = ['x'] ∨ k = ['y']

/-- C125: the conditions are met by the flattened field of the structure, and `p, a, q` and `x, p, y = true, q,` have the
same items apart from those of the other fields. -/
example : aliased.Accepted ∧ aliased.isTransparent = false ∧ aliased.shape = .named ∧ aliased.andThens = [] ∧
    (∀ f ∈ aliased.fields, f.item.EndsAlike) ∧ (∀ f ∈ aliased.fields, ∀ n sp, Tidy (f.item.named n sp)) ∧
    NotNamed aliased.fields [] namesBeside 1 ∧
    (∀ f, aliased.fields[1]? = some f → f.flatParsable = true →
      ∀ k, PlainOwn namesBeside (f.flatCall [] k (Field.fieldNames aliased.fields))) ∧
    SameBut namesBeside
      [.ident ['p'] 1, .punct ',' false 2, .ident ['a'] 3, .punct ',' false 4, .ident ['q'] 5]
      [.ident ['x'] 6, .punct ',' false 7, .ident ['p'] 1, .punct ',' false 2, .ident ['y'] 8, .punct '=' false 9,
        .ident ['t'] 10, .punct ',' false 4, .ident ['q'] 5, .punct ',' false 11] := by
  have hin : (twoNamed "p" "q").Accepted := by
    refine ⟨⟨fun f hf h => ?_, fun _ h => ?_⟩, fun h => ?_, fun h => ?_⟩
    · simp only [StructDef.data, twoNamed, List.mem_cons, List.not_mem_nil, or_false] at hf
      rcases hf with rfl | rfl <;> cases h
    · cases h
    · cases h
    · cases h
  refine ⟨⟨⟨?_, fun _ h => (by cases h)⟩, fun h => (by cases h), fun h => (by cases h)⟩, rfl, rfl, rfl,
    aliased_all.2 ⟨boolItem_ends, boolItem_ends, boolItem_ends⟩, aliased_all.2 ⟨boolItem_tidy, boolItem_tidy, boolItem_tidy⟩,
    notNamed_flat (i := 1) rfl rfl _ _, ?_, [[.ident ['p'] 1], [.ident ['q'] 5]], ?_, ?_⟩
  · exact aliased_all.2 ⟨fun h => (by cases h), fun h => (by cases h), fun h => (by cases h)⟩
  · intro f hf _ k
    cases hf
    refine .struct (twoNamed "p" "q") k [] false hin rfl
      ⟨fun f hf _ => (twoNamed_fine.item f hf).named, fun f hf => (twoNamed_fine.item f hf).missing,
        twoNamed_fine.flat rfl⟩ ?_ ?_ ?_ ?_
    · intro f hf
      simp only [twoNamed, List.mem_cons, List.not_mem_nil, or_false] at hf
      rcases hf with rfl | rfl <;> exact ends_bool
    · intro f hf
      simp only [twoNamed, List.mem_cons, List.not_mem_nil, or_false] at hf
      rcases hf with rfl | rfl <;> exact boolDict_tidy'.named
    · intro i key hk g ho
      obtain ⟨m, hm, h1, _, h3, _⟩ := ho
      rw [List.nil_append] at hm
      subst hm
      have hg := List.mem_of_getElem? h1
      simp only [twoNamed, List.mem_cons, List.not_mem_nil, or_false] at hg
      rcases hg with rfl | rfl <;> simp [plainField] at h3 <;> subst h3 <;> simp [namesBeside] at hk
    · intro f hf h
      simp only [twoNamed, List.mem_cons, List.not_mem_nil, or_false] at hf
      rcases hf with rfl | rfl <;> cases h
  · refine .more (v := [.ident ['p'] 1]) (by simp [NoComma, Comma]) ⟨_, _, rfl⟩ ?_
    refine .other (segs := [['a']]) (sp := 3) (v := [.ident ['a'] 3]) (vt := [])
      (.mk (pt := [.ident ['a'] 3]) (.plain (.one _ _)) (by simp [StartsColon2])) (.inl rfl) (by simp [NoComma])
      ⟨_, _, rfl⟩ (.last (by simp [NoComma, Comma]) (by simp))
  · refine .other (segs := [['x']]) (sp := 6) (v := [.ident ['x'] 6]) (vt := [])
      (.mk (pt := [.ident ['x'] 6]) (.plain (.one _ _)) (by simp [StartsColon2])) (.inr (.inr (.inl rfl)))
      (by simp [NoComma]) ⟨_, _, rfl⟩ ?_
    refine .more (v := [.ident ['p'] 1]) (by simp [NoComma, Comma]) ⟨_, _, rfl⟩ ?_
    refine .other (segs := [['y']]) (sp := 8) (v := [.ident ['y'] 8, .punct '=' false 9, .ident ['t'] 10])
      (vt := [.punct '=' false 9, .ident ['t'] 10])
      (.mk (pt := [.ident ['y'] 8]) (.plain (.one _ _)) (by simp [StartsColon2])) (.inr (.inr (.inr rfl)))
      (by simp [NoComma, Comma]) ⟨_, _, rfl⟩ ?_
    exact .more (v := [.ident ['q'] 5]) (by simp [NoComma, Comma]) ⟨_, _, rfl⟩ .nil

/-- C125: in `{p, a, q = false}` and `{x, p, b = false, y, q = false,}` the flattened field is the same, the others are
not. -/
example : letI : Env := ⟨fun a _ => some a, fun _ _ => 0, 1⟩
    ((aliased.dict.parse (.named 0) ⟨[.group .brace [.ident ['p'] 1, .punct ',' false 2, .ident ['a'] 3, .punct ',' false 4,
      .ident ['q'] 5, .punct '=' false 6, .ident "false".toList 7] 8 9], 0, none⟩).1 matches
      .ok [[true], [true, false], []]) ∧
    ((aliased.dict.parse (.named 0) ⟨[.group .brace [.ident ['x'] 1, .punct ',' false 2, .ident ['p'] 3, .punct ',' false 4,
      .ident ['b'] 3, .punct '=' false 6, .ident "false".toList 7, .punct ',' false 4, .ident ['y'] 3, .punct ',' false 4,
      .ident ['q'] 5, .punct '=' false 6, .ident "false".toList 7, .punct ',' false 4] 8 9], 0, none⟩).1 matches
      .ok [[false], [true, false], [true, true]]) := by
  decide +kernel

end
end Deluxe
