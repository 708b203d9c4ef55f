import Verif.Lemmas.Drained
/-!
# Parsers that leave nothing unexpected behind when they succeed
-/
namespace Deluxe

/-- If the parser succeeds it has not come across anything unexpected. -/
def Tidy {α : Type} (m : M Stream α) : Prop :=
  ∀ s, s.unexp = none → ∀ a, (m s).1 = .ok a → (m s).2.unexp = none ∧ (m s).2.scope = s.scope

/-- A step of a loop that does not come across anything unexpected, unless an error was recorded. -/
def TidyStep {κ : Type} (clean : κ → Prop) (step : M (κ × Stream) Unit) : Prop :=
  ∀ k s k' s', step (k, s) = (.ok (), (k', s')) → clean k' →
    clean k ∧ (s.unexp = none → s'.unexp = none ∧ s'.scope = s.scope)

section
variable {κ : Type} {clean : κ → Prop} {step : M (κ × Stream) Unit}

theorem ItemRun.drained (hs : TidyStep clean step) {k s r k' s'} (h : ItemRun step k s r k' s') (hr : r = .ok ())
    (hc : clean k') : clean k ∧ (s.unexp = none → s' = { s with toks := [] }) := by
  induction h with
  | @done k s h0 => exact ⟨hc, fun _ => by cases s; simp_all⟩
  | @last k s k1 s1 hne hst h0 =>
    obtain ⟨h1, h2⟩ := hs _ _ _ _ hst hc
    refine ⟨h1, fun hu => ?_⟩
    obtain ⟨h3, h4⟩ := h2 hu
    cases s1; cases s; simp_all
  | @more k s k1 s1 c rest r k2 s2 hne hst h0 hco _ ih =>
    obtain ⟨i1, i2⟩ := ih hr hc
    obtain ⟨h1, h2⟩ := hs _ _ _ _ hst i1
    refine ⟨h1, fun hu => ?_⟩
    obtain ⟨h3, h4⟩ := h2 hu
    rw [i2 h3]
    cases s1; cases s; simp_all
  | failItem => cases hr
  | failSep => cases hr

theorem StreamsRun.drained (hs : TidyStep clean step) {k l r k' l'} (h : StreamsRun (ItemRun step) k l r k' l')
    (hr : r = .ok ()) (hc : clean k') : clean k ∧ (Fresh l → l' = Deluxe.drained l) := by
  induction h with
  | nil => exact ⟨hc, fun _ => rfl⟩
  | cons h1 _ ih =>
    obtain ⟨i1, i2⟩ := ih hr hc
    obtain ⟨h2, h3⟩ := h1.drained hs rfl i1
    refine ⟨h2, fun hl => ?_⟩
    rw [i2 fun s hs => hl s (List.mem_cons_of_mem _ hs), h3 (hl _ List.mem_cons_self)]
    rfl
  | fail => cases hr

theorem forStreams_drained (hs : TidyStep clean step) {k : κ} {l : List Stream} {k' : κ} {l' : List Stream}
    (h : forStreams (itemLoop step) (k, l) = (.ok (), (k', l'))) (hc : clean k') (hl : Fresh l) : l' = drained l :=
  ((forStreams_sound (itemLoop_sound step) (by simp) h).drained hs rfl hc).2 hl

end

/-- Nothing was recorded. -/
def Acc.Clean {γ : Type} (acc : Acc γ) : Prop := acc.errs.toList = []

theorem Errors.intoResult_ok {α : Type} {e : Errors} {a b : α} (h : e.intoResult a = .ok b) : e.toList = [] := by
  obtain ⟨_ | e⟩ := e
  · rfl
  · cases h

theorem runAcc_drains {γ : Type} {init : γ} {step : M (Acc γ × Stream) Unit} (hs : TidyStep Acc.Clean step) :
    Drains (runAcc init (forStreams (itemLoop step))) := by
  intro l hl a h
  unfold runAcc at h ⊢
  cases hr : forStreams (itemLoop step) (⟨init, Errors.new⟩, l) with
  | mk r x =>
    obtain ⟨acc, l'⟩ := x
    rw [hr] at h
    cases r with
    | ok u => exact forStreams_drained hs hr (Errors.intoResult_ok h) hl
    | err e => cases h
    | panic => cases h

theorem runAccPush_drains {γ : Type} {init : γ} {step : M (Acc γ × Stream) Unit} (hs : TidyStep Acc.Clean step) :
    Drains (runAccPush init (forStreams (itemLoop step))) := by
  intro l hl a h
  unfold runAccPush at h ⊢
  cases hr : forStreams (itemLoop step) (⟨init, Errors.new⟩, l) with
  | mk r x =>
    obtain ⟨acc, l'⟩ := x
    rw [hr] at h
    cases r with
    | ok u => exact forStreams_drained hs hr (Errors.intoResult_ok h) hl
    | err e =>
      have := Errors.intoResult_ok h
      simp [SynErr.toList] at this
    | panic => cases h

theorem parseAnyPath_tidy [Env] : Tidy parseAnyPath := by
  intro s hs _ _
  unfold parseAnyPath
  dsimp only
  split
  · exact ⟨hs, rfl⟩
  · split <;> exact ⟨hs, rfl⟩

section
variable [Env]

theorem keyStep_tidy {κ : Type} {clean : κ → Prop} {func : Str → Span → M (κ × Stream) Unit}
    (h : ∀ key sp, TidyStep clean (func key sp)) : TidyStep clean (keyStep func) := by
  intro k s k' s' hst hc
  rw [keyStep_eq] at hst
  cases hp : parseAnyPath s with
  | mk r s1 =>
    rw [hp] at hst
    cases r with
    | ok p =>
      obtain ⟨h1, h2⟩ := h _ _ _ _ _ _ hst hc
      refine ⟨h1, fun hu => ?_⟩
      have h3 := parseAnyPath_tidy s hu p (by rw [hp])
      rw [hp] at h3
      obtain ⟨h4, h5⟩ := h2 h3.1
      exact ⟨h4, h5.trans h3.2⟩
    | err e => cases hst
    | panic => cases hst

omit [Env] in
theorem stepPush_tidy {α γ : Type} {item : M Stream α} (h : Tidy item) {push : Acc γ → α → Stream → Stream → Acc γ}
    (hp : ∀ acc a s s', (push acc a s s').Clean → acc.Clean) : TidyStep Acc.Clean (stepPush item push) := by
  intro k s k' s' hst hc
  simp only [stepPush] at hst
  have hi := h s
  cases he : item s with
  | mk r s1 =>
    rw [he] at hst hi
    cases r with
    | ok a => cases hst; exact ⟨hp _ _ _ _ hc, fun hu => hi hu a rfl⟩
    | err e =>
      cases hst
      simp [Acc.Clean, SynErr.toList] at hc
    | panic => cases hst

omit [Env] in
theorem stepSkip_tidy {κ : Type} {clean : κ → Prop} : TidyStep clean stepSkip := by
  intro k s k' s' hst hc
  cases hst
  exact ⟨hc, fun hu => ⟨hu, rfl⟩⟩

theorem seqAppend_drains {α : Type} {d : Dict α} (h : ∀ n sp, Tidy (d.named n sp)) (paths : List Str) :
    Drains (seqAppend d paths) := by
  unfold seqAppend
  rw [parseStruct_eq]
  refine runAccPush_drains (keyStep_tidy fun key sp => ?_)
  split
  · exact stepPush_tidy (h _ _) fun _ _ _ _ h => h
  · exact stepSkip_tidy

theorem setInsert_clean {α : Type} [DecidableEq α] (acc : Acc (List α)) (a : α) (s s' : Stream)
    (h : (setInsert acc a s s').Clean) : acc.Clean := by
  unfold setInsert at h
  split at h
  · simp [Acc.Clean, Errors.push, SynErr.toList] at h
  · exact h

theorem setAppend_drains {α : Type} [DecidableEq α] {d : Dict α} (h : ∀ n sp, Tidy (d.named n sp)) (paths : List Str) :
    Drains (setAppend d paths) := by
  unfold setAppend
  rw [parseStruct_eq]
  refine runAcc_drains (keyStep_tidy fun key sp => ?_)
  split
  · exact stepPush_tidy (h _ _) setInsert_clean
  · exact stepSkip_tidy

theorem mapRest_drains {κ ν : Type} [DecidableEq κ] {kd : Dict κ} (keyStr : κ → Str) {vd : Dict ν}
    (hk : ∀ m, Tidy (kd.parse m)) (hv : ∀ n sp, Tidy (vd.named n sp)) (exclude : List Str) :
    Drains (mapRest kd keyStr vd exclude) := by
  refine runAcc_drains ?_
  intro k s k' s' hst hc
  simp only [restStep] at hst
  have hi := hk .unnamed s
  cases he : kd.parse .unnamed s with
  | mk r s1 =>
    rw [he] at hst hi
    cases r with
    | ok key =>
      have hi := fun hu => hi hu key rfl
      dsimp only at hst hi
      split at hst
      · cases hst
        exact ⟨hc, fun hu => hi hu⟩
      · have hi' := hv (keyStr key) s.span s1
        cases he' : vd.named (keyStr key) s.span s1 with
        | mk r s2 =>
          rw [he'] at hst hi'
          cases r with
          | ok v =>
            cases hst
            refine ⟨?_, fun hu => ?_⟩
            · simp only [Acc.Clean] at hc ⊢
              split at hc
              · simp [Errors.push, SynErr.toList] at hc
              · exact hc
            · obtain ⟨h1, h2⟩ := hi hu
              obtain ⟨h3, h4⟩ := hi' h1 v rfl
              exact ⟨h3, h4.trans h2⟩
          | err e => cases hst; simp [Acc.Clean, SynErr.toList] at hc
          | panic => cases hst
    | err e => cases hst
    | panic => cases hst

end

section
variable {V : Type} [Env]

/-- The other fields that are parsed leave nothing unexpected behind. -/
def PlainTidy (fields : List (Field V)) : Prop :=
  ∀ f ∈ fields, f.isFlat = false → f.isParsable = true → ∀ n sp, Tidy (f.item.named n sp)

theorem namedStep_tidy {d : Fields V} (h : PlainTidy d.fields) (allowed : List Str) (pre : Str) (validate : Bool)
    (key : Str) (sp : Span) : TidyStep Acc.Clean (namedStep d allowed pre validate key sp) := by
  intro k s k' s' hst hc
  simp only [namedStep] at hst
  cases ho : (stripPrefix pre key).bind (findArm d.fields) with
  | some x =>
    obtain ⟨f, i⟩ := x
    obtain ⟨_, -, hf, hp, -⟩ := (owner_some _ _ _ _ _).1 ho
    have hi := h f (List.mem_of_getElem? hf) hp.1 hp.2 (f.idents.headD []) sp s
    rw [ho] at hst
    simp only [FieldStatus.parseNamedItemWith] at hst
    cases he : f.item.named (f.idents.headD []) sp s with
    | mk r s1 =>
      rw [he] at hst hi
      cases r with
      | ok a =>
        cases hst
        refine ⟨?_, fun hu => hi hu a rfl⟩
        simp only [Acc.Clean] at hc ⊢
        split at hc
        · exact hc
        · simp [Errors.push, SynErr.toList] at hc
      | err e => cases hst; simp [Acc.Clean, SynErr.toList] at hc
      | panic => cases hst
  | none =>
    rw [ho] at hst
    cases hst
    refine ⟨?_, fun hu => ⟨hu, rfl⟩⟩
    simp only [Acc.Clean] at hc ⊢
    split at hc
    · unfold checkUnknownAttribute at hc
      split at hc
      · exact hc
      · simp [SynErr.toList] at hc
    · exact hc

/-- A structure whose fields leave nothing unexpected behind, and whose flat fields read everything, reads everything. -/
theorem namedFlat_drains_all {d : Fields V} (hg : FieldsGood d.fields) (ht : PlainTidy d.fields) (hf : FlatDrain d.fields)
    (allowed : List Str) (mode : Mode) (pre : Str) (validate : Bool) : Drains (namedFlat d allowed mode pre validate) := by
  cases ha : d.fields.any (·.flatParsable) with
  | true => exact namedFlat_drains hg hf ha allowed mode pre validate
  | false =>
    intro l hl vs h
    unfold namedFlat at h ⊢
    simp only [ha, Bool.false_eq_true, if_false] at h ⊢
    obtain ⟨rs, fatal, l0, hr⟩ := ReadsAll.exists (structItem_good (fields := d.fields) hg.named pre) l
    obtain ⟨e0, h1, -⟩ := parseStruct_reads d hg.named allowed pre validate hr
    have hlen : (parseStruct (namedStep d allowed pre validate) (⟨d.init, Errors.new⟩, l)).2.1.val.length =
        d.fields.length := by
      rw [h1]
      simp [itemSlots]
    clear h1 hr
    rw [parseStruct_eq] at h hlen ⊢
    cases hx : forStreams (itemLoop (keyStep (namedStep d allowed pre validate))) (⟨d.init, Errors.new⟩, l) with
    | mk r x =>
      obtain ⟨acc, l1⟩ := x
      rw [hx] at h hlen
      dsimp only at h hlen ⊢
      cases r with
      | ok u =>
        dsimp only at h ⊢
        rw [flatPass_none ha pre _ allowed _ hlen] at h ⊢
        exact forStreams_drained (keyStep_tidy fun key sp => namedStep_tidy ht allowed pre validate key sp) hx
          (postNamed_nil hg.missing h) hl
      | err e =>
        dsimp only at h ⊢
        rw [flatPass_none ha pre _ allowed _ hlen] at h
        have := postNamed_nil hg.missing h
        simp [SynErr.toList] at this
      | panic => cases h

/-- A computation on several streams that leaves nothing unexpected behind. -/
def TidyAll {α : Type} (m : M (List Stream) α) : Prop :=
  ∀ s, s.unexp = none → ∀ a, (m [s]).1 = .ok a → ((m [s]).2.headD s).unexp = none

omit [Env] in
theorem Drains.tidy {α : Type} {m : M (List Stream) α} (h : Drains m) : TidyAll m := by
  intro s hs a ha
  rw [h [s] (.single hs) a ha]
  exact hs

omit [Env] in
theorem parseEof_tidy : Tidy parseEof := by
  intro s hs _ _
  unfold parseEof
  dsimp only
  split
  · split <;> exact ⟨hs, rfl⟩
  · split <;> exact ⟨hs, rfl⟩

omit [Env] in
theorem delimited_tidy {α : Type} {m : M Stream α} (h : ∀ s, s.unexp = none → ∀ a, (m s).1 = .ok a → (m s).2.unexp = none)
    (dl : Delim) : Tidy (parseDelimitedWith dl m) := by
  intro s hs a ha
  simp only [parseDelimitedWith, withContent] at ha ⊢
  cases he : enter dl s with
  | error e => rw [he] at ha; cases ha
  | ok x =>
    obtain ⟨c, s'⟩ := x
    obtain ⟨h1, -⟩ := enter_fresh he hs
    have hsc : s'.scope = s.scope := by
      unfold enter at he
      split at he
      · split at he
        · cases he; rfl
        · cases he
      · cases he
    rw [he] at ha
    simp only [Bind.bind, M.bind] at ha ⊢
    have hi := h c h1
    cases hm : m c with
    | mk r c1 =>
      rw [hm] at ha hi
      cases r with
      | ok v =>
        have h2 := hi v rfl
        dsimp only at ha ⊢
        have h3 := parseEof_tidy c1 h2
        cases hp : parseEof c1 with
        | mk r c2 =>
          rw [hp] at ha h3
          cases r with
          | ok u =>
            have h4 := (h3 () rfl).1
            dsimp only at h4
            have h5 : c2.toks = [] := by
              unfold parseEof at hp
              dsimp only at hp
              split at hp
              · cases hp
              · next h => cases hp; exact h
            refine ⟨?_, hsc⟩
            simp only [Stream.dropChild, Pure.pure, M.pure, h4, h5]
            rfl
          | err e => cases ha
          | panic => cases ha
      | err e => cases ha
      | panic => cases ha

omit [Env] in
theorem parsePunct_tidy (c : Char) : Tidy (parsePunct c) := by
  intro s hs a ha
  unfold parsePunct
  split
  · split <;> exact ⟨hs, rfl⟩
  · exact ⟨hs, rfl⟩

omit [Env] in
theorem Tidy.bind {α β : Type} {m : M Stream α} {f : α → M Stream β} (h : Tidy m) (hf : ∀ a, Tidy (f a)) :
    Tidy (m >>= f) := by
  intro s hs b hb
  simp only [Bind.bind, M.bind] at hb ⊢
  have hi := h s hs
  cases hm : m s with
  | mk r s1 =>
    rw [hm] at hb hi
    cases r with
    | ok a =>
      obtain ⟨h1, h2⟩ := hi a rfl
      obtain ⟨h3, h4⟩ := hf a s1 h1 b hb
      exact ⟨h3, h4.trans h2⟩
    | err e => cases hb
    | panic => cases hb

omit [Env] in
theorem named_tidy {α : Type} {parse : Mode → M Stream α} {inline : Mode → M (List Stream) α} {flag : Span → Res α}
    (hp : ∀ m, Tidy (parse m)) (hi : ∀ m, TidyAll (inline m)) (sp : Span) :
    Tidy (parseNamedMetaItem parse inline flag sp) := by
  intro s hs a ha
  unfold parseNamedMetaItem at ha ⊢
  split at ha
  · next h => rw [if_pos h]; exact ((parsePunct_tidy '=').bind fun _ => hp _) s hs a ha
  · next h =>
    rw [if_neg h]
    split at ha
    · next h' => rw [if_pos h']; exact delimited_tidy (fun s hs a ha => hi _ s hs a ha) .paren s hs a ha
    · next h' => rw [if_neg h']; exact ⟨hs, rfl⟩

omit [Env] in
theorem Tidy.pure {α : Type} (a : α) : Tidy (Pure.pure a : M Stream α) := fun _ hs _ _ => ⟨hs, rfl⟩

omit [Env] in
theorem parseFirst_tidy {α : Type} {f : Mode → M Stream α} (h : ∀ m, Tidy (f m)) (mode : Mode) :
    TidyAll (parseFirst f mode) := fun s hs a ha =>
  ((h mode).bind fun x => parseEof_tidy.bind fun _ => Tidy.pure x) s hs a ha |>.1

omit [Env] in
/-- Items that only have a way to be parsed, and maybe a meaning as a flag. -/
theorem mk'_tidy {α : Type} {parse : Mode → M Stream α} {flag : Span → Res α} {missing : Str → Span → Res α}
    (h : ∀ m, Tidy (parse m)) (n : Str) (sp : Span) :
    Tidy ((Dict.mk' (parse := parse) (flag := flag) (missing := missing)).named n sp) :=
  named_tidy h (parseFirst_tidy h) sp

omit [Env] in
theorem Tidy.map {α β : Type} {m : M Stream α} (h : Tidy m) (f : α → β) : Tidy (m.map f) := by
  intro s hs b hb
  simp only [M.map] at hb ⊢
  cases hm : (m s).1 with
  | ok a => exact h s hs a hm
  | err e => rw [hm] at hb; cases hb
  | panic => rw [hm] at hb; cases hb

omit [Env] in
theorem expectLit_tidy {α : Type} (what : Str) (f : LitVal → Option α) : Tidy (expectLit what f) := by
  intro s hs _ _
  unfold expectLit
  split
  · split <;> exact ⟨hs, rfl⟩
  · exact ⟨hs, rfl⟩

end

end Deluxe
