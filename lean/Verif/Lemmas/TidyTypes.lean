import Verif.Lemmas.Tidy
import Verif.Lemmas.Tuple
/-!
# The provided types leave nothing unexpected behind when they succeed
-/
namespace Deluxe

/-- As `Tidy`, for several streams. -/
def TidyL {α : Type} (m : M (List Stream) α) : Prop :=
  ∀ l, Fresh l → ∀ a, (m l).1 = .ok a → Fresh (m l).2

/-- Nothing unexpected is left behind in any of the ways in which a value is read. -/
structure Dict.Tidy {α : Type} (d : Dict α) : Prop where
  parse : ∀ m, Deluxe.Tidy (d.parse m)
  inline : ∀ m, TidyL (d.inline m)
  named : ∀ n sp, Deluxe.Tidy (d.named n sp)

section
variable {α β : Type}

theorem TidyL.all {m : M (List Stream) α} (h : TidyL m) : TidyAll m := by
  intro s hs a ha
  have := h [s] (.single hs) a ha
  cases hl : (m [s]).2 with
  | nil => exact hs
  | cons s' l' =>
    rw [hl] at this
    exact this s' List.mem_cons_self

theorem drained_fresh {l : List Stream} (h : Fresh l) : Fresh (drained l) := by
  intro s hs
  obtain ⟨t, ht, rfl⟩ := List.mem_map.1 hs
  exact h t ht

theorem Drains.tidyL {m : M (List Stream) α} (h : Drains m) : TidyL m := by
  intro l hl a ha
  rw [h l hl a ha]
  exact drained_fresh hl

theorem parseFirst_tidyL {f : Mode → M Stream α} (h : ∀ m, Tidy (f m)) (mode : Mode) : TidyL (parseFirst f mode) := by
  intro l hl a ha
  unfold parseFirst at ha ⊢
  cases l with
  | nil => exact hl
  | cons s rest =>
    dsimp only at ha ⊢
    have := ((h mode).bind fun x => parseEof_tidy.bind fun _ => Tidy.pure x) s (hl s List.mem_cons_self) a ha
    intro t ht
    rcases List.mem_cons.1 ht with rfl | ht
    · exact this.1
    · exact hl t (List.mem_cons_of_mem _ ht)

theorem Dict.Tidy.mk' {parse : Mode → M Stream α} {inline : Mode → M (List Stream) α} {flag : Span → Res α}
    {missing : Str → Span → Res α} (hp : ∀ m, Deluxe.Tidy (parse m)) (hi : ∀ m, TidyL (inline m)) :
    (Dict.mk' parse inline flag missing).Tidy :=
  ⟨hp, hi, fun _ sp => named_tidy hp (fun m => (hi m).all) sp⟩

theorem Dict.Tidy.first {parse : Mode → M Stream α} {flag : Span → Res α}
    {missing : Str → Span → Res α} (hp : ∀ m, Deluxe.Tidy (parse m)) :
    (Dict.mk' (parse := parse) (flag := flag) (missing := missing)).Tidy :=
  .mk' hp (parseFirst_tidyL hp)

/-- Only the outcome is changed, and it is not made a success. -/
def Res.NoRescue (g : Res α → Res β) : Prop := ∀ r b, g r = .ok b → ∃ a, r = .ok a

theorem Tidy.mapRes {m : M Stream α} (h : Tidy m) {g : Res α → Res β} (hg : Res.NoRescue g) : Tidy (m.mapRes g) := by
  intro s hs b hb
  simp only [M.mapRes] at hb ⊢
  obtain ⟨a, ha⟩ := hg _ b hb
  exact h s hs a ha

theorem TidyL.mapRes {m : M (List Stream) α} (h : TidyL m) {g : Res α → Res β} (hg : Res.NoRescue g) :
    TidyL (m.mapRes g) := by
  intro s hs b hb
  simp only [M.mapRes] at hb ⊢
  obtain ⟨a, ha⟩ := hg _ b hb
  exact h s hs a ha

theorem Res.map_noRescue (f : α → β) : Res.NoRescue (fun r : Res α => r.map f) := by
  intro r b h
  cases r with
  | ok a => exact ⟨a, rfl⟩
  | err e => cases h
  | panic => cases h

theorem TidyL.map {m : M (List Stream) α} (h : TidyL m) (f : α → β) : TidyL (m.map f) :=
  h.mapRes (Res.map_noRescue f)

theorem delimited_tidyL {m : M (List Stream) α} (h : TidyL m) (dl : Delim) :
    Tidy (parseDelimitedWith dl (single m)) :=
  delimited_tidy (fun s hs a ha => h.all s hs a ha) dl

/-! ## Single tokens -/

theorem intDict_tidy (conv : Bool × Nat → Option α) : (intDict conv).Tidy := by
  refine .first fun m s hs a ha => ?_
  have := expectLit_tidy (what := "integer literal".toList) (f := fun
    | .lit (.int n) => some (false, n)
    | .neg (.int n) => some (true, n)
    | _ => none) s hs
  change ∀ a, (parseLitInt s).1 = .ok a → (parseLitInt s).2.unexp = none ∧ (parseLitInt s).2.scope = s.scope at this
  cases hp : parseLitInt s with
  | mk r s' =>
    rw [hp] at ha this
    cases r with
    | ok n =>
      have := this n rfl
      dsimp only at ha ⊢
      split at ha
      · exact this
      · cases ha
    | err e => cases ha
    | panic => cases ha

theorem u8Dict_tidy : u8Dict.Tidy := by
  refine .first fun m s hs a ha => ?_
  split <;> first | exact ⟨hs, rfl⟩ | (split <;> exact ⟨hs, rfl⟩)

theorem boolDict_tidy' : boolDict.Tidy := .first fun _ => by unfold parseLitBool; exact expectLit_tidy _ _

theorem charDict_tidy : charDict.Tidy := .first fun _ => by unfold parseLitChar; exact expectLit_tidy _ _

theorem stringDict_tidy : stringDict.Tidy := .first fun _ => by unfold parseLitStr; exact expectLit_tidy _ _

theorem identDict_tidy : identDict.Tidy := by
  refine .first fun m s hs a ha => ?_
  unfold parseIdentAny
  split <;> exact ⟨hs, rfl⟩

theorem synDict_tidy {p : M Stream α} (h : Tidy p) : (synDict p).Tidy := .first fun _ => h

theorem tokenTreeDict_tidy : tokenTreeDict.Tidy := by
  refine .first fun m s hs a ha => ?_
  split <;> exact ⟨hs, rfl⟩

theorem literalDict_tidy : literalDict.Tidy := by
  refine .first fun m s hs a ha => ?_
  split <;> exact ⟨hs, rfl⟩

theorem punctDict_tidy : punctDict.Tidy := by
  refine .first fun m s hs a ha => ?_
  split
  · split <;> exact ⟨hs, rfl⟩
  · exact ⟨hs, rfl⟩

theorem groupDict_tidy : groupDict.Tidy := by
  refine .first fun m s hs a ha => ?_
  split <;> exact ⟨hs, rfl⟩

theorem tokenStreamParse_tidy (m : Mode) : Tidy (tokenStreamParse m) := by
  intro s hs a ha
  unfold tokenStreamParse
  split
  · exact ⟨hs, rfl⟩
  · dsimp only
    split <;> exact ⟨hs, rfl⟩

theorem tokenStreamDict_tidy : tokenStreamDict.Tidy := .first tokenStreamParse_tidy

theorem tokenStreamFlat_tidy (m : Mode) (i : Nat) : TidyL (tokenStreamFlat.parse m i) := by
  have loop : ∀ n tts s u tts' s', tokenStreamLoop n (tts, s) = (u, (tts', s')) → s.unexp = none → s'.unexp = none := by
    intro n
    induction n with
    | zero => intro tts s u tts' s' h hs; cases h; exact hs
    | succ n ih =>
      intro tts s u tts' s' h hs
      simp only [tokenStreamLoop] at h
      split at h
      · cases h; exact hs
      · have h1 : (tokenStreamParse .unnamed s).2.unexp = none := by
          unfold tokenStreamParse
          split
          · exact hs
          · dsimp only
            split <;> exact hs
        cases hp : tokenStreamParse .unnamed s with
        | mk r s1 =>
          rw [hp] at h h1
          cases r with
          | ok ts => exact ih _ _ _ _ _ h h1
          | err e => cases h; exact h1
          | panic => cases h; exact h1
  have go : ∀ l tts u tts' l', forStreams.go tokenStreamLoop tts l = (u, (tts', l')) → Fresh l → Fresh l' := by
    intro l
    induction l with
    | nil => intro tts u tts' l' h hl; simp only [forStreams.go] at h; cases h; exact hl
    | cons s l ih =>
      intro tts u tts' l' h hl
      simp only [forStreams.go] at h
      have h1 := hl s List.mem_cons_self
      have h2 : Fresh l := fun t ht => hl t (List.mem_cons_of_mem _ ht)
      have cons : ∀ {x : Stream} {xs : List Stream}, x.unexp = none → Fresh xs → Fresh (x :: xs) := by
        intro x xs hx hxs t ht
        rcases List.mem_cons.1 ht with rfl | ht
        · exact hx
        · exact hxs t ht
      cases hb : tokenStreamLoop (s.toks.length + 1) (tts, s) with
      | mk r x =>
        obtain ⟨tts1, s1⟩ := x
        have h3 := loop _ _ _ _ _ _ hb h1
        rw [hb] at h
        cases r with
        | ok u =>
          cases hg : forStreams.go tokenStreamLoop tts1 l with
          | mk r y =>
            obtain ⟨k2, l2⟩ := y
            simp only [hg] at h
            cases h
            exact cons h3 (ih _ _ _ _ hg h2)
        | err e => cases h; exact cons h3 h2
        | panic => cases h; exact cons h3 h2
  intro l hl a ha
  simp only [tokenStreamFlat, forStreams] at ha ⊢
  cases hg : forStreams.go tokenStreamLoop [] l with
  | mk r y =>
    obtain ⟨k2, l2⟩ := y
    rw [hg] at ha
    have := go _ _ _ _ _ hg hl
    cases r with
    | ok u => exact this
    | err e => cases ha
    | panic => cases ha

/-! ## Types made of one other type -/

theorem optionDict_tidy {d : Dict α} (h : d.Tidy) : (optionDict d).Tidy := by
  refine .first fun m => ?_
  cases m with
  | named sp => exact (h.parse _).map some
  | unnamed =>
    intro s hs a ha
    dsimp only at ha ⊢
    split at ha
    · next hp =>
      rw [if_pos hp]
      exact ((delimited_tidyL (h.inline .unnamed) .paren).map some) (dropTok s) hs a ha
    · next hp =>
      rw [if_neg hp]
      split <;> exact ⟨hs, rfl⟩

theorem wrapperDict_tidy {d : Dict α} (h : d.Tidy) : (wrapperDict d).Tidy := .first h.parse

theorem Dict.Tidy.map {d : Dict α} (h : d.Tidy) (f : α → β) : (d.map f).Tidy :=
  ⟨fun m => (h.parse m).map f, fun m => (h.inline m).map f, fun n sp => (h.named n sp).map f⟩

variable [Env]

theorem spannedDict_tidy {d : Dict α} (h : d.Tidy) : (spannedDict d).Tidy := by
  refine ⟨fun m s hs a ha => ?_, fun m l hl a ha => ?_, fun n sp s hs a ha => ?_⟩
  · simp only [spannedDict] at ha ⊢
    obtain ⟨v, hv⟩ := Res.map_noRescue _ _ _ ha
    exact h.parse m s hs v hv
  · simp only [spannedDict] at ha ⊢
    obtain ⟨v, hv⟩ := Res.map_noRescue _ _ _ ha
    exact h.inline m l hl v hv
  · simp only [spannedDict] at ha ⊢
    obtain ⟨v, hv⟩ := Res.map_noRescue _ _ _ ha
    exact h.named n sp s hs v hv

theorem spannedFlat_tidy {m : M (List Stream) α} (h : TidyL m) : TidyL (spannedFlat m) := by
  intro l hl a ha
  simp only [spannedFlat] at ha ⊢
  obtain ⟨v, hv⟩ := Res.map_noRescue _ _ _ ha
  exact h l hl v hv

theorem flagDict_tidy : flagDict.Tidy := by
  refine ⟨fun m s hs a ha => (nomatch ha), fun m l hl a ha => (nomatch ha), fun n sp s hs a ha => ?_⟩
  simp only [flagDict] at ha ⊢
  split <;> exact ⟨hs, rfl⟩

/-! ## Collections -/

omit [Env] in
theorem seqFlat_tidy {d : Dict α} (h : ∀ m, Tidy (d.parse m)) (m : Mode) (i : Nat) : TidyL ((seqFlat d).parse m i) :=
  (runAcc_drains (step := stepPush (d.parse .unnamed) pushBack) (stepPush_tidy (h .unnamed) fun _ _ _ _ h => h)).tidyL

omit [Env] in
theorem seqDict_tidy {d : Dict α} (h : ∀ m, Tidy (d.parse m)) : (seqDict d).Tidy :=
  .mk' (fun _ => delimited_tidyL (seqFlat_tidy h _ _) _) fun _ => seqFlat_tidy h _ _

theorem setFlat_tidy [DecidableEq α] {d : Dict α} (h : ∀ m, Tidy (d.parse m)) (m : Mode) (i : Nat) :
    TidyL ((setFlat d).parse m i) :=
  (runAcc_drains (stepPush_tidy (h .unnamed) setInsert_clean)).tidyL

theorem setDict_tidy [DecidableEq α] {d : Dict α} (h : ∀ m, Tidy (d.parse m)) : (setDict d).Tidy :=
  .mk' (fun _ => delimited_tidyL (setFlat_tidy h _ _) _) fun _ => setFlat_tidy h _ _

theorem mapStep_tidy {κ ν : Type} [DecidableEq κ] {kd : Dict κ} (keyStr : κ → Str) {vd : Dict ν}
    (hk : ∀ m, Tidy (kd.parse m)) (hv : ∀ n sp, Tidy (vd.named n sp)) : TidyStep Acc.Clean (mapStep kd keyStr vd) := by
  intro k s k' s' hst hc
  simp only [mapStep] at hst
  have hi := hk .unnamed s
  cases he : kd.parse .unnamed s with
  | mk r s1 =>
    rw [he] at hst hi
    cases r with
    | ok key =>
      have hi := fun hu => hi hu key rfl
      dsimp only at hst hi
      obtain ⟨h1, h2⟩ := stepPush_tidy (hv (keyStr key) s.span) (by
        intro acc a s s' hc
        simp only [Acc.Clean] at hc ⊢
        split at hc
        · simp [Errors.push, SynErr.toList] at hc
        · exact hc) _ _ _ _ hst hc
      refine ⟨h1, fun hu => ?_⟩
      obtain ⟨h3, h4⟩ := hi hu
      obtain ⟨h5, h6⟩ := h2 h3
      exact ⟨h5, h6.trans h4⟩
    | err e => cases hst
    | panic => cases hst

theorem mapFlat_tidy {κ ν : Type} [DecidableEq κ] {kd : Dict κ} (keyStr : κ → Str) {vd : Dict ν}
    (hk : ∀ m, Tidy (kd.parse m)) (hv : ∀ n sp, Tidy (vd.named n sp)) (m : Mode) (i : Nat) :
    TidyL ((mapFlat kd keyStr vd).parse m i) :=
  (runAcc_drains (mapStep_tidy keyStr hk hv)).tidyL

theorem mapDict_tidy {κ ν : Type} [DecidableEq κ] {kd : Dict κ} (keyStr : κ → Str) {vd : Dict ν}
    (hk : ∀ m, Tidy (kd.parse m)) (hv : ∀ n sp, Tidy (vd.named n sp)) : (mapDict kd keyStr vd).Tidy :=
  .mk' (fun _ => delimited_tidyL (mapFlat_tidy keyStr hk hv _ _) _) fun _ => mapFlat_tidy keyStr hk hv _ _

end

/-! ## Arrays, tuples and tuple structures -/

/-- As `TidyStep`, for steps that get the current stream and those after it. -/
def TidyStepL {κ : Type} (clean : κ → Prop) (step : M (κ × List Stream) Unit) : Prop :=
  ∀ k l k' l', step (k, l) = (.ok (), (k', l')) → clean k' → clean k ∧ (Fresh l → Fresh l')

theorem Fresh.cons {s : Stream} {l : List Stream} (hs : s.unexp = none) (hl : Fresh l) : Fresh (s :: l) := fun t ht =>
  (List.mem_cons.1 ht).elim (fun h => h ▸ hs) (hl t)

section
variable {κ : Type} {clean : κ → Prop} {func : Nat → M (κ × List Stream) Unit}

theorem tupleLoop_tidy (hf : ∀ i, TidyStepL clean (func i)) (rem c : Nat) (k : κ) (l : List Stream) {x : Nat × Bool} {k' : κ}
    {l' : List Stream} (h : tupleLoop func rem c (k, l) = (.ok x, (k', l'))) (hc : clean k') :
    clean k ∧ (Fresh l → Fresh l') := by
  induction rem generalizing c k l with
  | zero =>
    cases l with
    | nil => simp only [tupleLoop] at h; cases h; exact ⟨hc, id⟩
    | cons s l => simp only [tupleLoop] at h; cases h; exact ⟨hc, id⟩
  | succ rem ih =>
    cases l with
    | nil => simp only [tupleLoop] at h; cases h; exact ⟨hc, id⟩
    | cons s l =>
      rw [tupleLoop_cons] at h
      split at h
      · cases h; exact ⟨hc, id⟩
      · dsimp only at h
        cases hst : func c (k, s :: l) with
        | mk r y =>
          obtain ⟨k1, l1⟩ := y
          rw [hst] at h
          cases r with
          | ok u =>
            dsimp only at h
            split at h
            · obtain ⟨h1, h2⟩ := ih _ _ _ h
              obtain ⟨h3, h4⟩ := hf c _ _ _ _ hst h1
              exact ⟨h3, fun hl => h2 (h4 hl)⟩
            · cases l1 with
              | nil => simp only [onHead] at h; cases h
              | cons s1 l1 =>
                simp only [onHead] at h
                have hp := parsePunct_tidy ',' s1
                change s1.unexp = none → ∀ a, (parseComma s1).1 = .ok a → _ at hp
                cases hcm : parseComma s1 with
                | mk r s2 =>
                  rw [hcm] at h
                  cases r with
                  | ok u =>
                    obtain ⟨h1, h2⟩ := ih _ _ _ h
                    obtain ⟨h3, h4⟩ := hf c _ _ _ _ hst h1
                    refine ⟨h3, fun hl => h2 ?_⟩
                    have h5 := h4 hl
                    have h6 := hp (h5 s1 List.mem_cons_self) () (by rw [hcm])
                    change (parseComma s1).2.unexp = none ∧ _ at h6
                    rw [hcm] at h6
                    exact .cons h6.1 fun t ht => h5 t (List.mem_cons_of_mem _ ht)
                  | err e => cases h
                  | panic => cases h
          | err e => cases h
          | panic => cases h

theorem parseTupleStruct_tidy (hf : ∀ i, TidyStepL clean (func i)) (len : Nat) (k : κ) (l : List Stream) {c : Nat} {k' : κ}
    {l' : List Stream} (h : parseTupleStruct func len (k, l) = (.ok c, (k', l'))) (hc : clean k') :
    clean k ∧ (Fresh l → Fresh l') := by
  have go : ∀ n c0 k l c k' l', parseTupleStruct.go func len n c0 (k, l) = (.ok c, (k', l')) → clean k' →
      clean k ∧ (Fresh l → Fresh l') := by
    intro n
    induction n with
    | zero => intro c0 k l c k' l' h hc; simp only [parseTupleStruct.go] at h; cases h; exact ⟨hc, id⟩
    | succ n ih =>
      intro c0 k l c k' l' h hc
      simp only [parseTupleStruct.go] at h
      cases hl : tupleLoop func (len - c0) c0 (k, l) with
      | mk r y =>
        obtain ⟨k1, l1⟩ := y
        rw [hl] at h
        cases r with
        | ok x =>
          obtain ⟨c1, b⟩ := x
          cases b with
          | true => cases h; exact tupleLoop_tidy hf _ _ _ _ hl hc
          | false =>
            cases l1 with
            | nil => cases h; exact tupleLoop_tidy hf _ _ _ _ hl hc
            | cons s1 l1 =>
              dsimp only at h
              cases hg : parseTupleStruct.go func len n c1 (k1, l1) with
              | mk r y =>
                obtain ⟨k2, l2⟩ := y
                rw [hg] at h
                cases h
                obtain ⟨h1, h2⟩ := ih _ _ _ _ _ _ hg hc
                obtain ⟨h3, h4⟩ := tupleLoop_tidy hf _ _ _ _ hl h1
                refine ⟨h3, fun hl => ?_⟩
                have h5 := h4 hl
                exact .cons (h5 s1 List.mem_cons_self) (h2 fun t ht => h5 t (List.mem_cons_of_mem _ ht))
        | err e => cases h
        | panic => cases h
  exact go _ _ _ _ _ _ _ h hc

theorem stepHead_tidy {m : M (κ × Stream) Unit} (h : TidyStep clean m) : TidyStepL clean (stepHead m) := by
  intro k l k' l' hst hc
  cases l with
  | nil => simp only [stepHead] at hst; cases hst
  | cons s l =>
    simp only [stepHead] at hst
    cases hm : m (k, s) with
    | mk r y =>
      obtain ⟨k1, s1⟩ := y
      rw [hm] at hst
      cases hst
      obtain ⟨h1, h2⟩ := h _ _ _ _ hm hc
      refine ⟨h1, fun hl => ?_⟩
      exact .cons (h2 (hl s List.mem_cons_self)).1 fun t ht => hl t (List.mem_cons_of_mem _ ht)

end

section
variable {α : Type} [Env]

omit [Env] in
theorem Errors.check_ok {e : Errors} (h : e.check = .ok ()) : e.toList = [] := by
  obtain ⟨_ | e⟩ := e
  · rfl
  · cases h

omit [Env] in
theorem arrayStep_tidy {item : M Stream α} (h : Tidy item) (n : Nat) : TidyStep Acc.Clean (arrayStep n item) := by
  intro k s k' s' hst hc
  simp only [arrayStep] at hst
  have hi := h s
  cases he : item s with
  | mk r s1 =>
    rw [he] at hst hi
    cases r with
    | ok a =>
      dsimp only at hst
      split at hst
      · cases hst; exact ⟨hc, fun hu => hi hu a rfl⟩
      · cases hst
    | err e => cases hst; simp [Acc.Clean, SynErr.toList] at hc
    | panic => cases hst

theorem arrayFlat_tidy {d : Dict α} (h : ∀ m, Tidy (d.parse m)) (n : Nat) (m : Mode) (i : Nat) :
    TidyL ((arrayFlat n d).parse m i) := by
  intro l hl a ha
  simp only [arrayFlat] at ha ⊢
  cases hp : parseTupleStruct (fun _ => stepHead (arrayStep n (d.parse .unnamed))) n (⟨([], 0), Errors.new⟩, l) with
  | mk r y =>
    obtain ⟨acc, l1⟩ := y
    rw [hp] at ha
    cases r with
    | ok c =>
      dsimp only at ha ⊢
      have key : acc.errs.toList = [] → Fresh l1 := fun he =>
        (parseTupleStruct_tidy (fun _ => stepHead_tidy (arrayStep_tidy (h .unnamed) n)) n _ _ hp he).2 hl
      split at ha
      · next hc =>
        refine key ?_
        have := Errors.check_ok hc
        split at this
        · simp [Errors.push, SynErr.toList] at this
        · exact this
      · cases ha
      · cases ha
    | err e =>
      dsimp only at ha ⊢
      split at ha
      · next hc =>
        have := Errors.check_ok hc
        split at this <;> simp [Errors.push, SynErr.toList] at this
      · cases ha
      · cases ha
    | panic => cases ha

theorem arrayDict_tidy {d : Dict α} (h : ∀ m, Tidy (d.parse m)) (n : Nat) : (arrayDict n d).Tidy :=
  .mk' (fun _ => delimited_tidyL (arrayFlat_tidy h _ _ _) _) fun _ => arrayFlat_tidy h _ _ _

omit [Env] in
theorem tupleStep_tidy {items : List (M Stream α)} (h : ∀ p ∈ items, Tidy p) (i : Nat) :
    TidyStep Acc.Clean (tupleStep items i) := by
  intro k s k' s' hst hc
  simp only [tupleStep] at hst
  cases hi : items[i]? with
  | none => rw [hi] at hst; cases hst
  | some item =>
    cases hv : k.val[i]? with
    | none => rw [hi, hv] at hst; cases hst
    | some st =>
      rw [hi, hv] at hst
      have hp := h item (List.mem_of_getElem? hi) s
      simp only [FieldStatus.parseUnnamedItemWith] at hst
      cases he : item s with
      | mk r s1 =>
        rw [he] at hst hp
        cases r with
        | ok a => cases hst; exact ⟨hc, fun hu => hp hu a rfl⟩
        | err e => cases hst; simp [Acc.Clean, SynErr.toList] at hc
        | panic => cases hst

theorem tupleFlat_tidy {ds : List (Dict α)} (h : ∀ d ∈ ds, ∀ m, Tidy (d.parse m)) (m : Mode) (i : Nat) :
    TidyL ((tupleFlat ds).parse m i) := by
  intro l hl a ha
  simp only [tupleFlat] at ha ⊢
  have hs : ∀ i, TidyStep Acc.Clean (tupleStep (ds.map (·.parse .unnamed)) i) := fun i => tupleStep_tidy (by
    intro p hp
    obtain ⟨d, hd, rfl⟩ := List.mem_map.1 hp
    exact h d hd _) i
  cases hp : parseTupleStruct (fun i => stepHead (tupleStep (ds.map (·.parse .unnamed)) i)) ds.length
      (⟨List.replicate ds.length .none, Errors.new⟩, l) with
  | mk r y =>
    obtain ⟨acc, l1⟩ := y
    rw [hp] at ha
    have key : ∀ c, r = .ok c → acc.errs.toList = [] → Fresh l1 := fun c hr he =>
      (parseTupleStruct_tidy (fun i => stepHead_tidy (hs i)) _ _ _ (hr ▸ hp) he).2 hl
    cases r with
    | ok c =>
      dsimp only at ha ⊢
      split at ha
      · next hm =>
        have : ∀ e : Errors, (e.bail : Res (List α)) ≠ .ok a := fun e h => by
          obtain ⟨_ | e⟩ := e <;> cases h
        exact absurd ha (this _)
      · split at ha
        · next hc => exact key c rfl (Errors.check_ok hc)
        · cases ha
        · cases ha
    | err e =>
      dsimp only at ha ⊢
      split at ha
      · have : ∀ e : Errors, (e.bail : Res (List α)) ≠ .ok a := fun e h => by
          obtain ⟨_ | e⟩ := e <;> cases h
        exact absurd ha (this _)
      · split at ha
        · next hc =>
          have := Errors.check_ok hc
          simp [SynErr.toList] at this
        · cases ha
        · cases ha
    | panic => cases ha

theorem tupleDict_tidy {ds : List (Dict α)} (h : ∀ d ∈ ds, ∀ m, Tidy (d.parse m)) : (tupleDict ds).Tidy :=
  .mk' (fun _ => delimited_tidyL (tupleFlat_tidy h _ _) _) fun _ => tupleFlat_tidy h _ _

/-! ## Punctuated -/

omit [Env] in
theorem Errors.pushSyn_ne {e : Errors} {x : SynErr} : (e.pushSyn x).toList ≠ [] := by
  simp [SynErr.toList]

omit [Env] in
/-- If nothing was recorded in the end, nothing unexpected was left behind by the elements and separators. -/
theorem punctLoop_tidy {item : M Stream α} {peekP : Stream → Bool} {parseP : M Stream Unit} (hi : Tidy item)
    (hp : Tidy parseP) : ∀ (n : Nat) {k : Acc (List α)} {s : Stream} {k' s'},
      punctLoop item peekP parseP n (k, s) = (.ok (), (k', s')) → k'.Clean →
      k.Clean ∧ (s.unexp = none → s'.unexp = none ∧ s'.scope = s.scope) := by
  intro n
  induction n with
  | zero => intro k s k' s' h; cases h
  | succ n ih =>
    intro k s k' s' h hc
    simp only [punctLoop] at h
    split at h
    · cases h; exact ⟨hc, fun h => ⟨h, rfl⟩⟩
    · have h1 := hi s
      cases he : item s with
      | mk r s1 =>
        rw [he] at h h1
        cases r with
        | ok v =>
          have h1 := fun hu => h1 hu v rfl
          dsimp only at h h1
          split at h
          · obtain ⟨a1, a2⟩ := ih h hc
            exact ⟨a1, fun hu => ⟨(a2 (h1 hu).1).1, (a2 (h1 hu).1).2.trans (h1 hu).2⟩⟩
          · have h2 := hp s1
            cases he2 : parseP s1 with
            | mk r2 s2 =>
              rw [he2] at h h2
              cases r2 with
              | ok u =>
                cases h
                have h2 := fun hu => h2 hu () rfl
                exact ⟨hc, fun hu => ⟨(h2 (h1 hu).1).1, (h2 (h1 hu).1).2.trans (h1 hu).2⟩⟩
              | err e => exact absurd (ih h hc).1 Errors.pushSyn_ne
              | panic => cases h
        | err e =>
          dsimp only at h
          cases he2 : punctSkip peekP parseP s1.toks s1 with
          | mk r2 s2 =>
            rw [he2] at h
            cases r2 with
            | ok u => exact absurd (ih h hc).1 Errors.pushSyn_ne
            | err e => cases h
            | panic => cases h
        | panic => cases h

omit [Env] in
theorem forStreams_fresh {κ : Type} {clean : κ → Prop} {body : Nat → M (κ × Stream) Unit}
    (hb : ∀ n k s k' s', body n (k, s) = (.ok (), (k', s')) → clean k' → clean k ∧ (s.unexp = none → s'.unexp = none))
    {k : κ} {l : List Stream} {k' : κ} {l' : List Stream} (h : forStreams body (k, l) = (.ok (), (k', l')))
    (hc : clean k') : clean k ∧ (Fresh l → Fresh l') := by
  have h : forStreams.go body k l = (.ok (), (k', l')) := h
  induction l generalizing k l' with
  | nil => cases h; exact ⟨hc, id⟩
  | cons s l ih =>
    simp only [forStreams.go] at h
    cases he : body (s.toks.length + 1) (k, s) with
    | mk r x =>
      obtain ⟨k1, s1⟩ := x
      rw [he] at h
      cases r with
      | ok u =>
        dsimp only at h
        cases hg : forStreams.go body k1 l with
        | mk r2 y =>
          obtain ⟨k2, l2⟩ := y
          rw [hg] at h
          cases h
          obtain ⟨a1, a2⟩ := ih hg hg
          obtain ⟨b1, b2⟩ := hb _ _ _ _ _ he a1
          exact ⟨b1, fun hf => .cons (b2 (hf s List.mem_cons_self)) (a2 fun t ht => hf t (List.mem_cons_of_mem _ ht))⟩
      | err e => cases h
      | panic => cases h

omit [Env] in
theorem punctFlat_tidy {d : Dict α} {peekP : Stream → Bool} {parseP : M Stream Unit} (h : ∀ m, Tidy (d.parse m))
    (hp : Tidy parseP) (m : Mode) (i : Nat) : TidyL ((punctFlat d peekP parseP).parse m i) := by
  intro l hl a ha
  simp only [punctFlat, runAcc] at ha ⊢
  cases hr : forStreams (punctLoop (d.parse .unnamed) peekP parseP) (⟨[], Errors.new⟩, l) with
  | mk r x =>
    obtain ⟨acc, l'⟩ := x
    rw [hr] at ha
    cases r with
    | ok u =>
      exact (forStreams_fresh (clean := Acc.Clean) (fun n k s k' s' hs hc =>
        ⟨(punctLoop_tidy (h .unnamed) hp n hs hc).1, fun hu => ((punctLoop_tidy (h .unnamed) hp n hs hc).2 hu).1⟩) hr
        (Errors.intoResult_ok ha)).2 hl
    | err e => cases ha
    | panic => cases ha

omit [Env] in
theorem punctuatedDict_tidy {d : Dict α} {peekP : Stream → Bool} {parseP : M Stream Unit} (h : ∀ m, Tidy (d.parse m))
    (hp : Tidy parseP) : (punctuatedDict d peekP parseP).Tidy :=
  .mk' (fun _ => delimited_tidyL (punctFlat_tidy h hp _ _) _) fun _ => punctFlat_tidy h hp _ _

end

end Deluxe
