import Verif.Lemmas.Runs
import Verif.Lemmas.Types
import Verif.Spec.Items
/-!
# Reading comma separated items

The relations `Reads` and `ReadsAll` are in `Verif.Spec.Items`; here the loops are shown to follow them.
-/
namespace Deluxe

/-- The outcome of a loop from an optional error. -/
def stopped : Option SynErr → Res Unit
  | none => .ok ()
  | some e => .err e

/-- An item whose failure is recorded and skipped up to the next comma. -/
def recover {α : Type} (item : M Stream α) : M Stream (Except SynErr α) := fun s =>
  match item s with
  | (.ok a, s') => (.ok (.ok a), s')
  | (.err e, s') => (.ok (.error e), skipMetaItem s')
  | (.panic, s') => (.panic, s')

/-- A loop step that reads an item and folds the result into the captured state. -/
def foldStep {β κ : Type} (item : M Stream β) (g : κ → β → Stream → Stream → κ) :
    M (κ × Stream) Unit := fun (k, s) =>
  match item s with
  | (.ok b, s') => (.ok (), (g k b s s', s'))
  | (.err e, s') => (.err e, (k, s'))
  | (.panic, s') => (.panic, (k, s'))

/-- The captured state after the reads. -/
def foldReads {β κ : Type} (g : κ → β → Stream → Stream → κ) (k : κ)
    (rs : List (β × Stream × Stream)) : κ :=
  rs.foldl (fun k x => g k x.1 x.2.1 x.2.2) k

section
variable {β κ : Type}

theorem stopped_ne_panic (o : Option SynErr) : stopped o ≠ .panic := by cases o <;> simp [stopped]

theorem stopped_inj {a b : Option SynErr} (h : stopped a = stopped b) : a = b := by
  cases a <;> cases b <;> simp_all [stopped]

theorem Reads.run {item : M Stream β} {s rs fatal s'} (h : Reads item s rs fatal s')
    (g : κ → β → Stream → Stream → κ) (k : κ) :
    ItemRun (foldStep item g) k s (stopped fatal) (foldReads g k rs) s' := by
  induction h generalizing k with
  | done h => exact .done h
  | last hne hi h0 => exact .last hne (by simp only [foldStep, hi, foldReads, List.foldl]) h0
  | more hne hi h1 hc _ ih =>
    exact .more hne (by simp only [foldStep, hi]) h1 hc (ih _)
  | failItem hne hi => exact .failItem hne (by simp only [foldStep, hi, foldReads, List.foldl])
  | failSep hne hi h1 hc =>
    exact .failSep hne (by simp only [foldStep, hi, foldReads, List.foldl]) h1 hc

theorem foldStep_ok {item : M Stream β} {g : κ → β → Stream → Stream → κ} {k s k1 s1}
    (h : foldStep item g (k, s) = (.ok (), (k1, s1))) :
    ∃ b, item s = (.ok b, s1) ∧ k1 = g k b s s1 := by
  simp only [foldStep] at h
  cases hi : item s with
  | mk r s' =>
    rw [hi] at h
    cases r <;> simp at h
    obtain ⟨rfl, rfl⟩ := h
    exact ⟨_, rfl, rfl⟩

theorem ItemRun.reads {item : M Stream β} {g : κ → β → Stream → Stream → κ} {k s r k' s'}
    (h : ItemRun (foldStep item g) k s r k' s') :
    ∃ rs fatal, Reads item s rs fatal s' ∧ r = stopped fatal ∧ k' = foldReads g k rs := by
  induction h with
  | done h => exact ⟨[], none, .done h, rfl, rfl⟩
  | last hne hst h0 =>
    obtain ⟨b, hi, rfl⟩ := foldStep_ok hst
    exact ⟨_, none, .last hne hi h0, rfl, rfl⟩
  | more hne hst h1 hc _ ih =>
    obtain ⟨b, hi, rfl⟩ := foldStep_ok hst
    obtain ⟨rs, fatal, hr, rfl, rfl⟩ := ih
    exact ⟨_, fatal, .more hne hi h1 hc hr, rfl, rfl⟩
  | @failItem k s k1 s1 e hne hst =>
    simp only [foldStep] at hst
    cases hi : item s with
    | mk r s' =>
      rw [hi] at hst
      cases r <;> simp at hst
      obtain ⟨rfl, rfl, rfl⟩ := hst
      exact ⟨[], some _, .failItem hne hi, rfl, rfl⟩
  | failSep hne hst h1 hc =>
    obtain ⟨b, hi, rfl⟩ := foldStep_ok hst
    exact ⟨_, some _, .failSep hne hi h1 hc, rfl, rfl⟩

theorem ReadsAll.run {item : M Stream β} {l rs fatal l'} (h : ReadsAll item l rs fatal l')
    (g : κ → β → Stream → Stream → κ) (k : κ) :
    StreamsRun (ItemRun (foldStep item g)) k l (stopped fatal) (foldReads g k rs) l' := by
  induction h generalizing k with
  | nil => exact .nil
  | @cons s rs1 s1 rest rs2 fatal rest' h1 _ ih =>
    refine .cons (h1.run g k) ?_
    have := ih (foldReads g k rs1)
    simp only [foldReads, List.foldl_append] at this ⊢
    exact this
  | fail h1 => exact .fail (h1.run g k)

theorem StreamsRun.reads {item : M Stream β} {g : κ → β → Stream → Stream → κ} {k l r k' l'}
    (h : StreamsRun (ItemRun (foldStep item g)) k l r k' l') :
    ∃ rs fatal, ReadsAll item l rs fatal l' ∧ r = stopped fatal ∧ k' = foldReads g k rs := by
  induction h with
  | nil => exact ⟨[], none, .nil, rfl, rfl⟩
  | cons h1 _ ih =>
    obtain ⟨rs1, f1, hr1, he1, rfl⟩ := h1.reads
    obtain ⟨rs2, f2, hr2, rfl, rfl⟩ := ih
    have : f1 = none := stopped_inj (he1.symm.trans rfl)
    subst this
    exact ⟨_, f2, .cons hr1 hr2, rfl, by simp [foldReads]⟩
  | fail h1 =>
    obtain ⟨rs1, f1, hr1, he1, rfl⟩ := h1.reads
    cases f1 with
    | none => simp [stopped] at he1
    | some e =>
      simp only [stopped, Res.err.injEq] at he1
      subst he1
      exact ⟨_, some _, .fail hr1, rfl, rfl⟩

theorem foldStep_shrinks {item : M Stream β} (hi : Good item) (g : κ → β → Stream → Stream → κ) :
    Shrinks (foldStep item g) := by
  intro k s
  have h := Adv.length (hi s).2
  simp only [foldStep]
  cases hi : item s with
  | mk r s' =>
    rw [hi] at h
    cases r <;> exact h

theorem foldStep_good {item : M Stream β} (hi : Good item) (g : κ → β → Stream → Stream → κ) :
    Good (foldStep item g) := by
  rintro ⟨k, s⟩
  obtain ⟨g1, g2⟩ := hi s
  simp only [foldStep]
  cases hi : item s with
  | mk r s' =>
    rw [hi] at g1 g2
    cases r with
    | ok b => exact ⟨by simp, g2⟩
    | err e => exact ⟨by simp, g2⟩
    | panic => exact absurd rfl g1

/-- The loop over all streams does exactly what the relation says. -/
theorem fold_iff {item : M Stream β} (hi : Good item) (g : κ → β → Stream → Stream → κ) (k k' : κ)
    (l l' : List Stream) (r : Res Unit) :
    forStreams (itemLoop (foldStep item g)) (k, l) = (r, (k', l')) ↔
      ∃ rs fatal, ReadsAll item l rs fatal l' ∧ r = stopped fatal ∧ k' = foldReads g k rs := by
  constructor
  · intro h
    have hr : r ≠ .panic := by
      have := (items_good (foldStep_good hi g) (k, l)).1
      rw [h] at this; exact this
    exact (items_sound hr h).reads
  · rintro ⟨rs, fatal, hr, rfl, rfl⟩
    exact items_complete (foldStep_shrinks hi g) (hr.run g k)

/-- Every input can be read, in exactly one way. -/
theorem ReadsAll.exists {item : M Stream β} (hi : Good item) (l : List Stream) :
    ∃ rs fatal l', ReadsAll item l rs fatal l' := by
  cases h : forStreams (itemLoop (foldStep item (fun (_ : Unit) _ _ _ => ()))) ((), l) with
  | mk r st =>
    obtain ⟨k', l'⟩ := st
    obtain ⟨rs, fatal, hr, _⟩ := (fold_iff hi _ _ _ _ _ _).1 h
    exact ⟨rs, fatal, l', hr⟩

theorem ReadsAll.unique {item : M Stream β} (hi : Good item) {l rs1 f1 l1 rs2 f2 l2}
    (h1 : ReadsAll item l rs1 f1 l1) (h2 : ReadsAll item l rs2 f2 l2) :
    rs1 = rs2 ∧ f1 = f2 ∧ l1 = l2 := by
  let g : List (β × Stream × Stream) → β → Stream → Stream → List (β × Stream × Stream) :=
    fun k b s s' => k ++ [(b, s, s')]
  have hg : ∀ (rs k : List (β × Stream × Stream)), foldReads g k rs = k ++ rs := by
    intro rs
    induction rs with
    | nil => intro k; simp [foldReads]
    | cons x rs ih =>
      intro k
      have := ih (g k x.1 x.2.1 x.2.2)
      simp only [foldReads, List.foldl_cons] at this ⊢
      rw [this]; simp [g]
  have e1 := (fold_iff hi g [] _ l l1 _).2 ⟨rs1, f1, h1, rfl, rfl⟩
  have e2 := (fold_iff hi g [] _ l l2 _).2 ⟨rs2, f2, h2, rfl, rfl⟩
  rw [e1] at e2
  simp only [Prod.mk.injEq, hg, List.nil_append] at e2
  exact ⟨e2.2.1, stopped_inj e2.1, e2.2.2⟩

end

theorem recover_good {α} {item : M Stream α} (hi : Good item) : Good (recover item) := by
  intro s
  obtain ⟨g1, g2⟩ := hi s
  simp only [recover]
  split
  · rename_i h; rw [h] at g2; exact ⟨by simp, g2⟩
  · rename_i h; rw [h] at g2; exact ⟨by simp, (skipMetaItem_adv _).trans g2⟩
  · rename_i h; rw [h] at g1; exact absurd rfl g1

/-- Adds the result of a recovered item: a value by `push`, an error to the errors. -/
def addItem {α γ : Type} (push : Acc γ → α → Stream → Stream → Acc γ) :
    Acc γ → Except SynErr α → Stream → Stream → Acc γ := fun acc x s s' =>
  match x with
  | .ok a => push acc a s s'
  | .error e => { acc with errs := acc.errs.pushSyn e }

theorem stepPush_eq {α γ : Type} (item : M Stream α) (push : Acc γ → α → Stream → Stream → Acc γ) :
    stepPush item push = foldStep (recover item) (addItem push) := by
  funext st
  obtain ⟨acc, s⟩ := st
  simp only [stepPush, foldStep, recover]
  cases h : item s with
  | mk r s' => cases r <;> simp [addItem]

/-- Outcome of `runAcc`. -/
def accResult {γ : Type} (acc : Acc γ) : Option SynErr → Res γ
  | some e => .err e
  | none => acc.errs.intoResult acc.val

/-- Outcome of `runAccPush`. -/
def accResultPush {γ : Type} (acc : Acc γ) : Option SynErr → Res γ
  | some e => (acc.errs.pushSyn e).intoResult acc.val
  | none => acc.errs.intoResult acc.val

/-- `runAcc` of a folding loop, from the reads. -/
theorem runAcc_reads {β γ : Type} {item : M Stream β} (hi : Good item)
    (g : Acc γ → β → Stream → Stream → Acc γ) (init : γ) {l rs fatal l'}
    (h : ReadsAll item l rs fatal l') :
    runAcc init (forStreams (itemLoop (foldStep item g))) l =
      (accResult (foldReads g ⟨init, Errors.new⟩ rs) fatal, l') := by
  have := (fold_iff hi g ⟨init, Errors.new⟩ _ l l' _).2 ⟨rs, fatal, h, rfl, rfl⟩
  simp only [runAcc]
  rw [this]
  cases fatal <;> rfl

/-- `runAccPush` of a folding loop, from the reads. -/
theorem runAccPush_reads {β γ : Type} {item : M Stream β} (hi : Good item)
    (g : Acc γ → β → Stream → Stream → Acc γ) (init : γ) {l rs fatal l'}
    (h : ReadsAll item l rs fatal l') :
    runAccPush init (forStreams (itemLoop (foldStep item g))) l =
      (accResultPush (foldReads g ⟨init, Errors.new⟩ rs) fatal, l') := by
  have := (fold_iff hi g ⟨init, Errors.new⟩ _ l l' _).2 ⟨rs, fatal, h, rfl, rfl⟩
  simp only [runAccPush]
  rw [this]
  cases fatal <;> rfl

theorem Errors.intoResult_eq {α : Type} (e : Errors) (a : α) :
    (e.toList = [] → e.intoResult a = .ok a) ∧
      (e.toList ≠ [] → ∃ x, e.intoResult a = .err x ∧ x.toList = e.toList) := by
  rcases e with ⟨_ | s⟩
  · simp [Errors.toList, Errors.intoResult]
  · simp [Errors.toList, Errors.intoResult, SynErr.toList]

/-! ## Values and errors of a list of results -/

theorem errMsgs_eq_nil {α : Type} (xs : List (Except SynErr α)) :
    errMsgs xs = [] ↔ ∀ x ∈ xs, ∃ a, x = .ok a := by
  induction xs with
  | nil => simp [errMsgs]
  | cons x xs ih =>
    cases x with
    | ok a => simp [errMsgs, ih]
    | error e => simp [errMsgs, SynErr.toList]

theorem foldReads_pushBack {α : Type} (rs : List (Except SynErr α × Stream × Stream))
    (acc : Acc (List α)) :
    (foldReads (addItem pushBack) acc rs).val = acc.val ++ okVals (rs.map (·.1)) ∧
      (foldReads (addItem pushBack) acc rs).errs.toList =
        acc.errs.toList ++ errMsgs (rs.map (·.1)) := by
  induction rs generalizing acc with
  | nil => simp [foldReads, okVals, errMsgs]
  | cons x rs ih =>
    obtain ⟨x, s, s'⟩ := x
    have := ih (addItem pushBack acc x s s')
    simp only [foldReads, List.foldl_cons] at this ⊢
    rw [this.1, this.2]
    cases x with
    | ok a => simp [addItem, pushBack, okVals, errMsgs]
    | error e => simp [addItem, okVals, errMsgs]

/-! ## From the tokens of the items to the reads -/

/-- The item reader reads the tokens of an item as the item says. -/
def SegSound {β : Type} (item : M Stream β) (seg : List Tok → List Tok → Span → β → Prop) : Prop :=
  ∀ v rest sc b, Boundary rest → v ++ rest ≠ [] → seg v rest sc b → ∀ u, ∃ u',
    item ⟨v ++ rest, sc, u⟩ = (.ok b, ⟨rest, sc, u'⟩)

theorem Items.reads {β : Type} {item : M Stream β} {seg} (hs : SegSound item seg) {sc ts bs}
    (h : Items seg sc ts bs) : ∀ u, ∃ rs s', Reads item ⟨ts, sc, u⟩ rs none s' ∧
      rs.map (·.1) = bs ∧ s'.toks = [] := by
  induction h with
  | nil => intro u; exact ⟨[], _, .done rfl, rfl, rfl⟩
  | last hne hseg =>
    intro u
    rename_i v b
    obtain ⟨u', h1⟩ := hs v [] sc b (.inl rfl) (by simpa using hne) hseg u
    rw [List.append_nil] at h1
    exact ⟨[(b, _, _)], _, .last hne h1 rfl, rfl, rfl⟩
  | cons hc hseg _ ih =>
    intro u
    rename_i v c rest b bs _
    obtain ⟨u', h1⟩ := hs v (c :: rest) sc b (.inr ⟨_, _, rfl, hc⟩) (by simp) hseg u
    obtain ⟨rs, s', h2, h3, h4⟩ := ih u'
    exact ⟨(b, _, _) :: rs, s', .more (by simp) h1 rfl hc h2, by simp [h3], h4⟩

theorem ItemsAll.reads {β : Type} {item : M Stream β} {seg} (hs : SegSound item seg) {l bs}
    (h : ItemsAll seg l bs) : ∃ rs l', ReadsAll item l rs none l' ∧ rs.map (·.1) = bs ∧ AllRead l' := by
  induction h with
  | nil => exact ⟨[], [], .nil, rfl, by simp [AllRead]⟩
  | @cons s bs rest bs' h1 _ ih =>
    obtain ⟨rs1, s1, a1, a2, a3⟩ := h1.reads hs s.unexp
    obtain ⟨rs2, l2, b1, b2, b3⟩ := ih
    exact ⟨rs1 ++ rs2, s1 :: l2, .cons a1 b1, by simp [a2, b2], by
      intro x hx
      rcases List.mem_cons.1 hx with rfl | hx
      · exact a3
      · exact b3 x hx⟩

theorem skipToks_boundary {v rest : List Tok} (hv : NoComma v) (hr : Boundary rest) :
    skipToks (v ++ rest) = rest := by
  rw [skipToks_append _ _ hv]
  rcases hr with rfl | ⟨c, r, rfl, hc⟩
  · rfl
  · simp [skipToks, (isComma_iff c).2 hc]

theorem recover_segSound {α : Type} (p : M Stream α) : SegSound (recover p) (ReadsAs p) := by
  intro v rest sc b hr _ hseg u
  cases b with
  | ok a =>
    obtain ⟨u', h⟩ := hseg u
    exact ⟨u', by simp only [recover, h]⟩
  | error e =>
    obtain ⟨v', u', hv, h⟩ := hseg u
    refine ⟨u', ?_⟩
    simp only [recover, h, skipMetaItem, skipToks_boundary hv hr]

/-- The fold over the items, when they carry all that the fold looks at. -/
theorem foldReads_map {β κ : Type} (g : κ → β → κ) (k : κ) (rs : List (β × Stream × Stream)) :
    foldReads (fun k b _ _ => g k b) k rs = (rs.map (·.1)).foldl g k := by
  simp [foldReads, List.foldl_map]

/-- The loop on well-formed items. -/
theorem ItemsAll.run {β κ : Type} {item : M Stream β} {seg} (hi : Good item) (hs : SegSound item seg)
    {l bs} (h : ItemsAll seg l bs) (g : κ → β → κ) (k : κ) :
    ∃ l', forStreams (itemLoop (foldStep item (fun k b _ _ => g k b))) (k, l) =
      (.ok (), (bs.foldl g k, l')) ∧ AllRead l' := by
  obtain ⟨rs, l', h1, h2, h3⟩ := h.reads hs
  refine ⟨l', (fold_iff hi _ _ _ _ _ _).2 ⟨rs, none, h1, rfl, ?_⟩, h3⟩
  rw [foldReads_map, h2]

/-- Every successful run of the loop comes from reads. -/
theorem fold_ok {β κ : Type} {item : M Stream β} (hi : Good item) (g : κ → β → κ) {k k' : κ}
    {l l' : List Stream}
    (h : forStreams (itemLoop (foldStep item (fun k b _ _ => g k b))) (k, l) = (.ok (), (k', l'))) :
    ∃ rs, ReadsAll item l rs none l' ∧ k' = (rs.map (·.1)).foldl g k := by
  obtain ⟨rs, fatal, h1, h2, h3⟩ := (fold_iff hi _ _ _ _ _ _).1 h
  have : fatal = none := (stopped_inj (a := none) h2).symm
  subst this
  exact ⟨rs, h1, h3.trans (foldReads_map g k rs)⟩

theorem ReadsAll.read {β : Type} {item : M Stream β} {l rs l'} (h : ReadsAll item l rs none l') :
    AllRead l' := by
  have h1 : ∀ {s rs o s'}, Reads item s rs o s' → o = none → s'.toks = [] := by
    intro s rs o s' h
    induction h <;> simp_all
  generalize ho : (none : Option SynErr) = o at h
  induction h with
  | nil => simp [AllRead]
  | cons a _ ih =>
    intro x hx
    rcases List.mem_cons.1 hx with rfl | hx
    · exact h1 a rfl
    · exact ih ho x hx
  | fail => cases ho

/-- Reads of a recovering reader without failures are reads of the plain one. -/
theorem Reads.of_recover {α β : Type} {item : M Stream α} {item' : M Stream β} {f : α → β}
    (hf : ∀ s a s', item' s = (.ok (f a), s') → item s = (.ok a, s')) {s rs s'}
    (h : Reads item' s rs none s') (hok : ∀ x ∈ rs, ∃ a, x.1 = f a) :
    ∃ rs', Reads item s rs' none s' ∧ rs.map (·.1) = rs'.map (fun x => f x.1) := by
  generalize ho : (none : Option SynErr) = o at h
  induction h with
  | done h => exact ⟨[], .done h, rfl⟩
  | last hne hi h0 =>
    obtain ⟨a, ha⟩ := hok _ (List.mem_singleton.2 rfl)
    simp only at ha; subst ha
    exact ⟨_, .last hne (hf _ _ _ hi) h0, rfl⟩
  | more hne hi h1 hc _ ih =>
    obtain ⟨a, ha⟩ := hok _ (List.mem_cons_self ..)
    simp only at ha; subst ha
    obtain ⟨rs', i1, i2⟩ := ih (fun x hx => hok x (List.mem_cons_of_mem _ hx)) ho
    exact ⟨_, .more hne (hf _ _ _ hi) h1 hc i1, by simp [i2]⟩
  | failItem => cases ho
  | failSep => cases ho

theorem ReadsAll.of_recover {α β : Type} {item : M Stream α} {item' : M Stream β} {f : α → β}
    (hf : ∀ s a s', item' s = (.ok (f a), s') → item s = (.ok a, s')) {l rs l'}
    (h : ReadsAll item' l rs none l') (hok : ∀ x ∈ rs, ∃ a, x.1 = f a) :
    ∃ rs', ReadsAll item l rs' none l' ∧ rs.map (·.1) = rs'.map (fun x => f x.1) := by
  generalize ho : (none : Option SynErr) = o at h
  induction h with
  | nil => exact ⟨[], .nil, rfl⟩
  | cons a _ ih =>
    obtain ⟨r1, i1, i2⟩ := a.of_recover hf (fun x hx => hok x (List.mem_append_left _ hx))
    obtain ⟨r2, j1, j2⟩ := ih (fun x hx => hok x (List.mem_append_right _ hx)) ho
    subst ho
    exact ⟨r1 ++ r2, .cons i1 j1, by simp [i2, j2]⟩
  | fail => cases ho

/-- A successful reading by one item parser is one by another that agrees with it on those items. -/
theorem Reads.transfer {β γ : Type} {item : M Stream β} {item' : M Stream γ} (g : β → γ)
    (P : β → Prop) (h : ∀ s b s', P b → item s = (.ok b, s') → item' s = (.ok (g b), s'))
    {s rs f s'} (hr : Reads item s rs f s') (hf : f = none) (hp : ∀ x ∈ rs, P x.1) :
    Reads item' s (rs.map fun x => (g x.1, x.2)) none s' := by
  induction hr with
  | done h0 => exact .done h0
  | last hne hi h0 => exact .last hne (h _ _ _ (hp _ (by simp)) hi) h0
  | more hne hi h1 hc _ ih =>
    exact .more hne (h _ _ _ (hp _ (by simp)) hi) h1 hc (ih hf fun x hx => hp x (by simp [hx]))
  | failItem => cases hf
  | failSep => cases hf

theorem ReadsAll.transfer {β γ : Type} {item : M Stream β} {item' : M Stream γ} (g : β → γ)
    (P : β → Prop) (h : ∀ s b s', P b → item s = (.ok b, s') → item' s = (.ok (g b), s'))
    {l rs f l'} (hr : ReadsAll item l rs f l') (hf : f = none) (hp : ∀ x ∈ rs, P x.1) :
    ReadsAll item' l (rs.map fun x => (g x.1, x.2)) none l' := by
  induction hr with
  | nil => exact .nil
  | cons h1 _ ih =>
    rw [List.map_append]
    exact .cons (h1.transfer g P h rfl fun x hx => hp x (by simp [hx]))
      (ih hf fun x hx => hp x (by simp [hx]))
  | fail => cases hf

end Deluxe
