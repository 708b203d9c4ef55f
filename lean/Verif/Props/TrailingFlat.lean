import Verif.Props.TrailingComma
import Verif.Props.Structs
/-!
# C118, continued: a comma after the last item of a structure with flattened fields
-/
namespace Deluxe

/-! ## Items read one after the other -/

theorem EndsAlike.andThen {α β : Type} {p : M Stream α} {f : α → M Stream β} {q : M Stream β} (hp : EndsAlike p)
    (hf : ∀ x, EndsAlike (f x)) (hok : ∀ s x s1, p s = (.ok x, s1) → q s = f x s1)
    (hno : ∀ s, (∀ x s1, p s ≠ (.ok x, s1)) → ∀ y s1, q s ≠ (.ok y, s1)) : EndsAlike q := by
  intro v sc u hn
  rcases hp v sc u hn with ⟨x, w, u', h1, h2⟩ | h2
  · rcases hf x w sc u' (hn.suffix h1) with ⟨y, w', u'', h3, h4⟩ | h4
    · exact .inl ⟨y, w', u'', h3.trans h1, fun rest hb => (hok _ _ _ (h2 rest hb)).trans (h4 rest hb)⟩
    · exact .inr fun rest hb y s' h => h4 rest hb y s' ((hok _ _ _ (h2 rest hb)).symm.trans h)
  · exact .inr fun rest hb y s' => hno _ (fun x s1 => h2 rest hb x s1) y s'

theorem keyed_ends [Env] {β : Type} {f : Str → Span → M Stream β} (hf : ∀ key sp, EndsAlike (f key sp)) :
    EndsAlike (keyed f) := by
  refine EndsAlike.andThen parseAnyPath_ends (f := fun p => f (keyString p.segs) p.span) (fun p => hf _ _) ?_ ?_
  · intro s x s1 h
    simp only [keyed, h]
  · intro s h y s1 hk
    simp only [keyed] at hk
    split at hk
    · rename_i hq; exact h _ _ hq
    · simp at hk
    · simp at hk

theorem skipItem_ends {β : Type} (b : β) : EndsAlike (skipItem b) := fun v sc u hv =>
  .inl ⟨b, [], u, List.nil_suffix, fun rest hb => by simp [skipItem, skipMetaItem, skipToks_boundary hv hb]⟩

theorem EndsAlike.mapped {α β : Type} {p : M Stream α} (h : EndsAlike p) (f : α → β) : EndsAlike (p.map f) := by
  intro v sc u hn
  rcases h v sc u hn with ⟨x, w, u', h1, h2⟩ | h2
  · exact .inl ⟨f x, w, u', h1, fun rest hb => M.map_ok _ (h2 rest hb)⟩
  · refine .inr fun rest hb y s' hy => ?_
    simp only [M.map] at hy
    rcases hq : p ⟨v ++ rest, sc, u⟩ with ⟨r, s2⟩
    rw [hq] at hy
    cases r with
    | ok x => exact h2 rest hb _ _ hq
    | err e => simp [Res.map] at hy
    | panic => simp [Res.map] at hy

/-- What one reader accepts another one accepts, with a value that says more. -/
theorem Reads.lift {β γ : Type} {p : M Stream β} {q : M Stream γ} (g : γ → β) (C : γ → Prop)
    (h : ∀ s b s1, p s = (.ok b, s1) → ∃ b', q s = (.ok b', s1) ∧ g b' = b ∧ C b') {s rs s1}
    (hr : Reads p s rs none s1) :
    ∃ rs', Reads q s rs' none s1 ∧ rs'.map (fun x => g x.1) = rs.map (·.1) ∧ ∀ x ∈ rs', C x.1 := by
  generalize hf : (none : Option SynErr) = f at hr
  induction hr with
  | done h0 => exact ⟨_, .done h0, rfl, by simp⟩
  | last h0 h1 h2 =>
    obtain ⟨b', h3, rfl, h4⟩ := h _ _ _ h1
    exact ⟨_, .last h0 h3 h2, rfl, by simpa using h4⟩
  | more h0 h1 h2 hc _ ih =>
    obtain ⟨b', h3, rfl, h4⟩ := h _ _ _ h1
    obtain ⟨rs', i1, i2, i3⟩ := ih hf
    refine ⟨_, .more h0 h3 h2 hc i1, by simp [i2], ?_⟩
    intro x hx
    rcases List.mem_cons.1 hx with rfl | hx
    · exact h4
    · exact i3 x hx
  | failItem => cases hf
  | failSep => cases hf

theorem readsAll_one {β : Type} {p : M Stream β} {s : Stream} {rs s1} (h : Reads p s rs none s1) :
    ReadsAll p [s] rs none [s1] := by
  simpa using ReadsAll.cons h .nil

theorem reads_of_one {β : Type} {p : M Stream β} {s : Stream} {rs l'} (h : ReadsAll p [s] rs none l') :
    ∃ s1, l' = [s1] ∧ Reads p s rs none s1 := by
  cases h with
  | cons h1 h2 => cases h2; exact ⟨_, rfl, by simpa using h1⟩

/-! ## Tolerant parsers -/

/-- A comma after the last item makes no difference. -/
def Tolerant {α : Type} (q : M (List Stream) α) : Prop :=
  ∀ ts c sc u v, NoTrailing ts → Comma c → ((q [⟨ts ++ [c], sc, u⟩]).1 = .ok v ↔ (q [⟨ts, sc, u⟩]).1 = .ok v)

theorem own_append [Env] {α : Type} (names : List Str) (p : Str → Span → M Stream α) (s : Stream) (b : Option α)
    (s1 : Stream) (h : ownItem names p s = (.ok b, s1)) :
    ∃ b', appendItem names p s = (.ok b', s1) ∧ ownValue b' = b ∧ NotError b' := by
  simp only [appendItem, ownItem, keyed] at h ⊢
  cases hp : parseAnyPath s with
  | mk r s2 =>
    rw [hp] at h
    cases r with
    | err e => simp at h
    | panic => simp at h
    | ok path =>
      simp only at h ⊢
      by_cases hm : keyString path.segs ∈ names
      · simp only [hm, if_true, M.map, spanItem] at h ⊢
        cases hq : p (keyString path.segs) path.span s2 with
        | mk r2 s3 =>
          rw [hq] at h
          cases r2 with
          | ok a =>
            simp only [Res.map, Prod.mk.injEq, Res.ok.injEq] at h ⊢
            obtain ⟨rfl, rfl⟩ := h
            exact ⟨_, ⟨rfl, rfl⟩, rfl, fun y hy => by cases hy; exact ⟨_, rfl⟩⟩
          | err e => simp [Res.map] at h
          | panic => simp [Res.map] at h
      · simp only [hm, if_false, skipItem, Prod.mk.injEq, Res.ok.injEq] at h ⊢
        obtain ⟨rfl, rfl⟩ := h
        exact ⟨none, ⟨rfl, rfl⟩, rfl, fun y hy => by cases hy⟩

/-- `append` on a sequence succeeds exactly if the values of the items with the right keys can be read. -/
theorem seqAppend_iff [Env] {α : Type} (d : Dict α) (hd : ∀ n sp, Good (d.named n sp)) (names : List Str) (s : Stream)
    (xs : List α) :
    (seqAppend d names [s]).1 = .ok xs ↔
      ∃ rs s1, Reads (ownItem names d.named) s rs none s1 ∧ xs = (rs.map (·.1)).filterMap id := by
  constructor
  · intro h
    obtain ⟨rs, h1, h2, _⟩ := c26_only_sequence d hd names [s] _ xs (Prod.ext h rfl)
    obtain ⟨s1, _, h3⟩ := reads_of_one h1
    exact ⟨rs, s1, h3, h2⟩
  · rintro ⟨rs, s1, h1, rfl⟩
    obtain ⟨rs', h2, h3, h4⟩ := h1.lift (q := appendItem names d.named) ownValue NotError (own_append names d.named)
    have h5 := (fold_iff (appendItem_good hd names) (fun k b _ _ => onSome (fun k (x : Except SynErr α × Span) => seqAdd k x.1) k b)
      ⟨[], Errors.new⟩ _ [s] [s1] _).2 ⟨_, none, readsAll_one h2, rfl, rfl⟩
    rw [foldReads_map, foldl_some] at h5
    rw [show stopped none = .ok () from rfl] at h5
    have h6 := runAccPush_ok_of h5
    have hf := seqAdd_fold (((rs'.map (·.1)).filterMap id).map (·.1)) ⟨[], Errors.new⟩
    rw [List.foldl_map] at hf
    have he : errMsgs (((rs'.map (·.1)).filterMap id).map (·.1)) = [] := by
      rw [errMsgs_eq_nil]
      intro x hx
      obtain ⟨y, hy, rfl⟩ := List.mem_map.1 hx
      obtain ⟨z, hz, hzy⟩ := List.mem_filterMap.1 hy
      obtain ⟨w, hw, rfl⟩ := List.mem_map.1 hz
      exact h4 w hw y hzy
    have hv : okVals (((rs'.map (·.1)).filterMap id).map (·.1)) = (rs.map (·.1)).filterMap id := by
      rw [filterMap_own, ← h3]
      simp [List.map_map, Function.comp_def]
    rw [he, hv] at hf
    rw [seqAppend, appendStep_eq d.named names pushBack (fun k b => seqAdd k b.1) (fun _ _ => seqSpanStep_eq _)]
    refine (congrArg Prod.fst h6).trans ?_
    exact (intoResult_collects (w := (rs.map (·.1)).filterMap id) (msgs := []) (by rw [hf.2]; rfl)
      fun _ => hf.1).1 rfl

theorem ownItem_ends [Env] {α : Type} (names : List Str) {p : Str → Span → M Stream α} (hp : ∀ n sp, EndsAlike (p n sp)) :
    EndsAlike (ownItem names p) :=
  keyed_ends fun key sp => by
    split
    · exact (hp _ _).mapped _
    · exact skipItem_ends _

/-- **C118.**  A comma after the last item makes no difference to an `append` field collecting a sequence. -/
theorem c118_append_sequence [Env] {α : Type} (d : Dict α) (hd : ∀ n sp, Good (d.named n sp)) (he : d.EndsAlike)
    (names : List Str) : Tolerant (seqAppend d names) := by
  intro ts c sc u xs hn hc
  rw [seqAppend_iff d hd, seqAppend_iff d hd]
  exact Reads.comma_iff (ownItem_ends names he.named) hc hn sc u fun ys => xs = ys.filterMap id

theorem setAppend_iff [Env] {α : Type} [DecidableEq α] (d : Dict α) (hd : ∀ n sp, Good (d.named n sp)) (names : List Str)
    (s : Stream) (xs : List α) :
    (setAppend d names [s]).1 = .ok xs ↔
      ∃ rs s1, Reads (ownItem names d.named) s rs none s1 ∧ xs = (rs.map (·.1)).filterMap id ∧ xs.Nodup := by
  constructor
  · intro h
    obtain ⟨rs, h1, h2, h4, _⟩ := c26_only_set d hd names [s] _ xs (Prod.ext h rfl)
    obtain ⟨s1, _, h3⟩ := reads_of_one h1
    exact ⟨rs, s1, h3, h2, h4⟩
  · rintro ⟨rs, s1, h1, rfl, hnd⟩
    obtain ⟨rs', h2, h3, h4⟩ := h1.lift (q := appendItem names d.named) ownValue NotError (own_append names d.named)
    have h5 := (fold_iff (appendItem_good hd names) (fun k b _ _ => onSome setAdd k b)
      ⟨[], Errors.new⟩ _ [s] [s1] _).2 ⟨_, none, readsAll_one h2, rfl, rfl⟩
    rw [foldReads_map, foldl_some] at h5
    rw [show stopped none = .ok () from rfl] at h5
    have h6 := runAcc_ok_of h5
    have hf := setAdd_fold ((rs'.map (·.1)).filterMap id) ⟨[], Errors.new⟩
    have hv : okVals (((rs'.map (·.1)).filterMap id).map (·.1)) = (rs.map (·.1)).filterMap id := by
      rw [filterMap_own, ← h3]
      simp [List.map_map, Function.comp_def]
    have he : setMsgs [] ((rs'.map (·.1)).filterMap id) = [] := by
      rw [setMsgs_eq_nil]
      refine ⟨fun y hy => ?_, by rw [hv]; exact hnd, by simp⟩
      obtain ⟨z, hz, hzy⟩ := List.mem_filterMap.1 hy
      obtain ⟨w, hw, rfl⟩ := List.mem_map.1 hz
      exact h4 w hw y hzy
    rw [setAppend, appendStep_eq d.named names setInsert setAdd (fun _ _ => setStep_eq _)]
    refine (congrArg Prod.fst h6).trans ?_
    have hval := hf.2 he
    rw [hv] at hval
    exact (intoResult_collects (w := (rs.map (·.1)).filterMap id) (msgs := []) (by rw [hf.1, he]; rfl)
      fun _ => hval).1 rfl

/-- **C118.**  The same for an `append` field collecting a set. -/
theorem c118_append_set [Env] {α : Type} [DecidableEq α] (d : Dict α) (hd : ∀ n sp, Good (d.named n sp)) (he : d.EndsAlike)
    (names : List Str) : Tolerant (setAppend d names) := by
  intro ts c sc u xs hn hc
  rw [setAppend_iff d hd, setAppend_iff d hd]
  exact Reads.comma_iff (ownItem_ends names he.named) hc hn sc u fun ys => xs = ys.filterMap id ∧ xs.Nodup

/-! ## `rest` -/

theorem rest_entry [Env] {κ ν : Type} (kp : M Stream κ) (keyStr : κ → Str) (vp : Str → Span → M Stream ν)
    (exclude : List Str) (s : Stream) (b : Option (κ × ν)) (s1 : Stream)
    (h : restParser kp keyStr vp exclude s = (.ok b, s1)) :
    ∃ b', entryItem kp keyStr vp exclude id s = (.ok b', s1) ∧ okEntry b' = b ∧
      ∀ y, b' = some y → ∃ a, y.2.1 = .ok a := by
  simp only [restParser] at h
  split at h
  · rename_i k s0 hk
    split at h
    · rename_i hx
      simp only [Prod.mk.injEq, Res.ok.injEq] at h
      obtain ⟨rfl, rfl⟩ := h
      exact ⟨none, by simp [entryItem, hk, hx], rfl, by simp⟩
    · rename_i hx
      simp only [M.map] at h
      rcases hv : vp (keyStr k) s.span s0 with ⟨r, s2⟩
      rw [hv] at h
      cases r with
      | ok v =>
        simp only [Res.map, Prod.mk.injEq, Res.ok.injEq] at h
        obtain ⟨rfl, rfl⟩ := h
        exact ⟨some (k, .ok v, itemSpan s s0), by simp only [entryItem, hk, hx, if_false, hv], rfl,
          fun y hy => by cases hy; exact ⟨_, rfl⟩⟩
      | err e => simp [Res.map] at h
      | panic => simp [Res.map] at h
  · simp at h
  · simp at h

theorem rest_iff [Env] {κ ν : Type} [DecidableEq κ] (kd : Dict κ) (keyStr : κ → Str) (vd : Dict ν)
    (hk : Good (kd.parse .unnamed)) (hv : ∀ n sp, Good (vd.named n sp)) (exclude : List Str) (s : Stream)
    (es : List (κ × ν)) :
    (mapRest kd keyStr vd exclude [s]).1 = .ok es ↔
      ∃ rs s1, Reads (restParser (kd.parse .unnamed) keyStr vd.named exclude) s rs none s1 ∧
        es = (rs.map (·.1)).filterMap id ∧ (es.map (·.1)).Nodup := by
  constructor
  · intro h
    obtain ⟨rs, h1, h2, h4, _⟩ := c27_only_entries kd keyStr vd hk hv exclude [s] _ es (Prod.ext h rfl)
    obtain ⟨s1, _, h3⟩ := reads_of_one h1
    exact ⟨rs, s1, h3, h2, h4⟩
  · rintro ⟨rs, s1, h1, rfl, hnd⟩
    obtain ⟨rs', h2, h3, h4⟩ := h1.lift (q := entryItem (kd.parse .unnamed) keyStr vd.named exclude id) okEntry
      (fun b => ∀ y, b = some y → ∃ a, y.2.1 = .ok a) (rest_entry _ _ _ _)
    have h5 := (fold_iff (entryItem_good hk hv exclude (after := id) fun s => Adv.refl s)
      (fun k b _ _ => onSome mapAdd k b) ⟨[], Errors.new⟩ _ [s] [s1] _).2 ⟨_, none, readsAll_one h2, rfl, rfl⟩
    rw [foldReads_map, foldl_some] at h5
    rw [show stopped none = .ok () from rfl] at h5
    have h6 := runAcc_ok_of h5
    rw [← restStep_eq] at h6
    have hf := mapAdd_fold ((rs'.map (·.1)).filterMap id) ⟨[], Errors.new⟩
    have hval : okPairs ((rs'.map (·.1)).filterMap id) = (rs.map (·.1)).filterMap id := by
      rw [← filterMap_okEntry, ← h3]
      simp [List.filterMap_map, Function.comp_def]
    have hall : ∀ y ∈ (rs'.map (·.1)).filterMap id, ∃ a, y.2.1 = .ok a := by
      intro y hy
      obtain ⟨z, hz, hzy⟩ := List.mem_filterMap.1 hy
      obtain ⟨w, hw, rfl⟩ := List.mem_map.1 hz
      exact h4 w hw y hzy
    have he : mapMsgs [] ((rs'.map (·.1)).filterMap id) = [] := by
      rw [mapMsgs_eq_nil]
      refine ⟨hall, ?_, by simp⟩
      rw [← okPairs_keys _ hall, hval]
      exact hnd
    rw [mapRest]
    refine (congrArg Prod.fst h6).trans ?_
    have hv2 := hf.2 he
    rw [hval] at hv2
    exact (intoResult_collects (w := (rs.map (·.1)).filterMap id) (msgs := []) (by rw [hf.1]; exact he)
      fun _ => hv2).1 rfl

theorem restParser_ends {κ ν : Type} {kp : M Stream κ} {keyStr : κ → Str} {vp : Str → Span → M Stream ν}
    (hk : EndsAlike kp) (hk0 : ∀ rest sc u x s', Boundary rest → kp ⟨rest, sc, u⟩ ≠ (.ok x, s'))
    (hv : ∀ n sp, EndsAlike (vp n sp)) (exclude : List Str) : EndsAlike (restParser kp keyStr vp exclude) := by
  intro v sc u hn
  cases v with
  | nil =>
    refine .inr fun rest hb x s' h => ?_
    simp only [restParser, List.nil_append] at h
    split at h
    · rename_i h1; exact hk0 _ _ _ _ _ hb h1
    · simp at h
    · simp at h
  | cons t v =>
    have hsp : ∀ rest, (⟨t :: v ++ rest, sc, u⟩ : Stream).span = t.span := fun _ => rfl
    rcases hk (t :: v) sc u hn with ⟨x, w, u', h1, h2⟩ | h2
    · have hrest : ∀ rest, Boundary rest → restParser kp keyStr vp exclude ⟨t :: v ++ rest, sc, u⟩ =
          (if keyStr x ∈ exclude then skipItem none else (vp (keyStr x) t.span).map (fun v => some (x, v)))
            ⟨w ++ rest, sc, u'⟩ := by
        intro rest hb
        simp only [restParser, h2 rest hb, hsp]
        split <;> rfl
      have he : EndsAlike (if keyStr x ∈ exclude then skipItem none else (vp (keyStr x) t.span).map (fun v => some (x, v))) := by
        split
        · exact skipItem_ends _
        · exact (hv _ _).mapped _
      rcases he w sc u' (hn.suffix h1) with ⟨y, w', u'', h3, h4⟩ | h4
      · exact .inl ⟨y, w', u'', h3.trans h1, fun rest hb => (hrest rest hb).trans (h4 rest hb)⟩
      · exact .inr fun rest hb y s' h => h4 rest hb y s' ((hrest rest hb).symm.trans h)
    · refine .inr fun rest hb z s' h => ?_
      simp only [restParser] at h
      split at h
      · rename_i hq; exact h2 rest hb _ _ hq
      · simp at h
      · simp at h

/-- **C118.**  The same for a `rest` field. -/
theorem c118_rest [Env] {κ ν : Type} [DecidableEq κ] (kd : Dict κ) (keyStr : κ → Str) (vd : Dict ν)
    (hk : Good (kd.parse .unnamed)) (hv : ∀ n sp, Good (vd.named n sp)) (hke : kd.EndsAlike) (hve : vd.EndsAlike)
    (hk0 : ∀ rest sc u x s', Boundary rest → kd.parse .unnamed ⟨rest, sc, u⟩ ≠ (.ok x, s')) (exclude : List Str) :
    Tolerant (mapRest kd keyStr vd exclude) := by
  intro ts c sc u es hn hc
  rw [rest_iff kd keyStr vd hk hv, rest_iff kd keyStr vd hk hv]
  exact Reads.comma_iff (restParser_ends (hke.parse _) hk0 hve.named exclude) hc hn sc u fun ys =>
    es = ys.filterMap id ∧ (es.map (·.1)).Nodup

/-! ## Structures -/

section
variable [Env] {V : Type}

/-- The item reader of a structure that stops at the first value that cannot be read. -/
def strictItem (fields : List (Field V)) (pre : Str) : M Stream (SItem V) :=
  keyed fun key sp =>
    match (stripPrefix pre key).bind (findArm fields) with
    | some (f, i) => (f.item.named (f.idents.headD []) sp).map fun v => .field i (f.idents.headD []) sp (.ok v)
    | none => skipItem (.other key sp)

theorem strictItem_ends {fields : List (Field V)} (hi : ∀ f ∈ fields, f.item.EndsAlike) (pre : Str) :
    EndsAlike (strictItem fields pre) :=
  keyed_ends fun key sp => by
    split
    · rename_i f i h
      exact ((hi f ((owner_some _ _ _ _ _).1 h).mem.1).named _ _).mapped _
    · exact skipItem_ends _

/-- A value that was read. -/
def SItem.Fine (b : SItem V) : Prop := ∀ i name sp x, b = .field i name sp x → ∃ v, x = .ok v

theorem strict_struct (fields : List (Field V)) (pre : Str) (s : Stream) (b : SItem V) (s1 : Stream)
    (h : strictItem fields pre s = (.ok b, s1)) :
    ∃ b', structItem fields pre s = (.ok b', s1) ∧ id b' = b ∧ SItem.Fine b' := by
  simp only [strictItem, structItem, keyed] at h ⊢
  cases hp : parseAnyPath s with
  | mk r s2 =>
    rw [hp] at h
    cases r with
    | err e => simp at h
    | panic => simp at h
    | ok path =>
      simp only [structValue] at h ⊢
      cases ho : (stripPrefix pre (keyString path.segs)).bind (findArm fields) with
      | none =>
        rw [ho] at h
        simp only [skipItem, Prod.mk.injEq, Res.ok.injEq] at h
        obtain ⟨rfl, rfl⟩ := h
        exact ⟨_, rfl, rfl, fun _ _ _ _ h => by cases h⟩
      | some fi =>
        rw [ho] at h
        obtain ⟨f, i⟩ := fi
        simp only at h ⊢
        generalize f.item.named (f.idents.headD []) path.span = q at h ⊢
        simp only [M.map, Deluxe.recover] at h ⊢
        cases hq : q s2 with
        | mk r2 s3 =>
          rw [hq] at h
          cases r2 with
          | ok a =>
            simp only [Res.map, Prod.mk.injEq, Res.ok.injEq] at h ⊢
            obtain ⟨rfl, rfl⟩ := h
            exact ⟨_, ⟨rfl, rfl⟩, rfl, fun _ _ _ _ h => by cases h; exact ⟨_, rfl⟩⟩
          | err e => simp [Res.map] at h
          | panic => simp [Res.map] at h

theorem struct_strict (fields : List (Field V)) (pre : Str) (s : Stream) (b : SItem V) (s1 : Stream) (hb : SItem.Fine b)
    (h : structItem fields pre s = (.ok b, s1)) : strictItem fields pre s = (.ok (id b), s1) := by
  simp only [strictItem, structItem, keyed] at h ⊢
  cases hp : parseAnyPath s with
  | mk r s2 =>
    rw [hp] at h
    cases r with
    | err e => simp at h
    | panic => simp at h
    | ok path =>
      simp only [structValue] at h ⊢
      cases ho : (stripPrefix pre (keyString path.segs)).bind (findArm fields) with
      | none =>
        rw [ho] at h
        exact h
      | some fi =>
        rw [ho] at h
        obtain ⟨f, i⟩ := fi
        simp only at h ⊢
        generalize f.item.named (f.idents.headD []) path.span = q at h ⊢
        simp only [M.map, Deluxe.recover] at h ⊢
        cases hq : q s2 with
        | mk r2 s3 =>
          rw [hq] at h
          cases r2 with
          | ok a => simpa [Res.map] using h
          | err e =>
            simp only [Res.map, Prod.mk.injEq, Res.ok.injEq] at h
            obtain ⟨rfl, rfl⟩ := h
            obtain ⟨v, hv⟩ := hb _ _ _ _ rfl
            cases hv
          | panic => simp [Res.map] at h

/-- Where the items of a structure are read from. -/
def itemsFrom (d : Fields V) (s : Stream) : Stream := if d.fields.any (·.flatParsable) then s.fork else s

/-- A structure with named fields is accepted exactly if its items can be read one by one and the rest fits. -/
theorem struct_iff (d : Fields V) (ha : Accepted d) (ht : d.transparent = false) (hg : FieldsGood d.fields)
    (allowed : List Str) (k : Span) (pre : Str) (validate : Bool) (s : Stream) (vs : List V) :
    (namedFlat d allowed (.named k) pre validate [s]).1 = .ok vs ↔
      ∃ rs s1, Reads (strictItem d.fields pre) (itemsFrom d s) rs none s1 ∧
        ItemsOk (!d.allowUnknown && validate) allowed (rs.map (·.1)) ∧ vs.length = d.fields.length ∧
        ∀ i f, d.fields[i]? = some f → ∃ v, vs[i]? = some v ∧ Holds d allowed pre k [s] (rs.map (·.1)) f i v := by
  have hl : (if d.fields.any (·.flatParsable) then forkInputs [s] else [s]) = [itemsFrom d s] := by
    unfold itemsFrom
    split <;> rfl
  constructor
  · intro h
    obtain ⟨rs, fatal, l1, h1⟩ := ReadsAll.exists (structItem_good hg.named pre) [itemsFrom d s]
    rw [namedFlat_ok d ha ht hg allowed (.named k) pre validate (hl ▸ h1)] at h
    obtain ⟨rfl, h2, h3, h4⟩ := h
    have h5 := h1.transfer (item' := strictItem d.fields pre) id SItem.Fine
      (fun s b s' => struct_strict d.fields pre s b s') rfl
      (fun x hx i name sp y hy => h2.values i name sp y (by rw [← hy]; exact List.mem_map_of_mem hx))
    obtain ⟨s1, _, h6⟩ := reads_of_one h5
    exact ⟨_, s1, h6, by simpa using h2, h3, by rw [List.map_map]; exact h4⟩
  · rintro ⟨rs, s1, h1, h2, h3, h4⟩
    obtain ⟨rs', h5, h6, _⟩ := h1.lift (q := structItem d.fields pre) id SItem.Fine (strict_struct d.fields pre)
    have h7 : rs'.map (·.1) = rs.map (·.1) := h6
    refine (namedFlat_ok d ha ht hg allowed (.named k) pre validate (hl ▸ readsAll_one h5) vs).2 ⟨rfl, ?_, h3, ?_⟩
    · rw [h7]; exact h2
    · rw [h7]; exact h4

omit [Env] in
theorem Source.flat_iff {d : Fields V} {f : Field V} {g : Option (Except SynErr V)} {fl fl' ms : Res V} {o : Option V}
    (he : f.flatParsable = true → ∀ v, fl = .ok v → fl' = .ok v) (h : Source d f g fl ms o) : Source d f g fl' ms o := by
  cases h with
  | item a b => exact .item a b
  | flat a b => exact .flat a (he a _ b)
  | container a b => exact .container a b
  | default a b => exact .default a b
  | missing a b c d e => exact .missing a b c d e
  | target a b c => exact .target a b c

omit [Env] in
theorem Ends.flat_iff {d : Fields V} {f : Field V} {g : Option (Except SynErr V)} {fl fl' ms : Res V} {i : Nat} {v : V}
    (he : f.flatParsable = true → ∀ v, fl = .ok v → fl' = .ok v) (h : Ends d f g fl ms i v) : Ends d f g fl' ms i v := by
  rcases h with ⟨b, h1, h2⟩ | ⟨h1, h2⟩
  · exact .inl ⟨b, h1.flat_iff he, h2⟩
  · exact .inr ⟨h1.flat_iff he, h2⟩

/-- **C118.**  A comma after the last item makes no difference to a structure with named fields, if it makes none to its
flattened fields. -/
theorem c118_struct_any (d : Fields V) (ha : Accepted d) (ht : d.transparent = false) (hg : FieldsGood d.fields)
    (hi : ∀ f ∈ d.fields, f.item.EndsAlike) (allowed : List Str) (k : Span) (pre : Str) (validate : Bool)
    (hfl : ∀ f ∈ d.fields, f.flatParsable = true → Tolerant (f.flatCall pre k allowed)) :
    Tolerant (namedFlat d allowed (.named k) pre validate) := by
  intro ts c sc u vs hn hc
  rw [struct_iff d ha ht hg, struct_iff d ha ht hg]
  have hfrom : ∀ ts, ∃ u', itemsFrom d ⟨ts, sc, u⟩ = ⟨ts, sc, u'⟩ ∧ itemsFrom d ⟨ts ++ [c], sc, u⟩ = ⟨ts ++ [c], sc, u'⟩ := by
    intro ts
    unfold itemsFrom
    split
    · exact ⟨none, rfl, rfl⟩
    · exact ⟨u, rfl, rfl⟩
  have hout : ∀ i f, d.fields[i]? = some f → f.flatParsable = true → ∀ v,
      flatOut d.fields pre k allowed [⟨ts ++ [c], sc, u⟩] f i = .ok v ↔
        flatOut d.fields pre k allowed [⟨ts, sc, u⟩] f i = .ok v := by
    intro i f hf hp v
    have ht := hfl f (List.mem_of_getElem? hf) hp ts c sc
    unfold flatOut
    split
    · exact ht none v hn hc
    · exact ht u v hn hc
  obtain ⟨u', e1, e2⟩ := hfrom ts
  rw [e1, e2]
  have hP : ∀ bs : List (SItem V), (∀ i f, d.fields[i]? = some f → ∃ v, vs[i]? = some v ∧
      Holds d allowed pre k [⟨ts ++ [c], sc, u⟩] bs f i v) ↔ (∀ i f, d.fields[i]? = some f → ∃ v, vs[i]? = some v ∧
      Holds d allowed pre k [⟨ts, sc, u⟩] bs f i v) := by
    intro bs
    simp only [Holds]
    constructor
    · intro h i f hf
      obtain ⟨v, h1, h2⟩ := h i f hf
      exact ⟨v, h1, h2.flat_iff fun hp v => (hout i f hf hp v).1⟩
    · intro h i f hf
      obtain ⟨v, h1, h2⟩ := h i f hf
      exact ⟨v, h1, h2.flat_iff fun hp v => (hout i f hf hp v).2⟩
  simp only [hP]
  exact Reads.comma_iff (strictItem_ends hi pre) hc hn sc u' fun bs =>
    ItemsOk (!d.allowUnknown && validate) allowed bs ∧ vs.length = d.fields.length ∧
      ∀ i f, d.fields[i]? = some f → ∃ v, vs[i]? = some v ∧ Holds d allowed pre k [⟨ts, sc, u⟩] bs f i v

end
end Deluxe
