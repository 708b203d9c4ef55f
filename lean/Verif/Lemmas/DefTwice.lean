import Verif.Spec.DefTwice
import Verif.Lemmas.DefBad
/-!
# Reading attributes that are given more than once
-/
namespace Deluxe

/-- A step that takes its item from a state with `P` to one with `P'` and reports what is to be reported. -/
def TakesIn {κ : Type} (step : M (Acc κ × Stream) Unit) (P P' : κ → Prop) (msgs : List Msg) (v rest : List Tok)
    (sc : Span) : Prop :=
  ∀ k errs u, P k → ∃ k' errs', step (⟨k, errs⟩, ⟨v ++ rest, sc, u⟩) = (.ok (), (⟨k', errs'⟩, ⟨rest, sc, u⟩)) ∧
    P' k' ∧ (errs.toList ++ msgs).Sublist errs'.toList

section
variable {κ β σ : Type} {seg : List Tok → List Tok → Span → β → Prop} {step : M (Acc κ × Stream) Unit}
  {fits : β → Prop} {next : σ → β → σ} {msgs : σ → β → List Msg} {P : σ → κ → Prop}

/-- The messages about all items. -/
def trail (next : σ → β → σ) (msgs : σ → β → List Msg) : σ → List β → List Msg
  | _, [] => []
  | q, b :: bs => msgs q b ++ trail next msgs (next q b) bs

theorem trail_append (q : σ) (l1 l2 : List β) :
    trail next msgs q (l1 ++ l2) = trail next msgs q l1 ++ trail next msgs (l1.foldl next q) l2 := by
  induction l1 generalizing q with
  | nil => rfl
  | cons b l1 ih => simp [trail, ih]

theorem itemLoop_in
    (hstep : ∀ q v rest sc b, seg v rest sc b → fits b → Boundary rest →
      TakesIn step (P q) (P (next q b)) (msgs q b) v rest sc)
    {sc : Span} {ts : List Tok} {bs : List β} (hi : Items seg sc ts bs) (hf : ∀ b ∈ bs, fits b) :
    ∀ (q : σ) (k : κ) (errs : Errors) (u : Option Span) (n : Nat), P q k → ts.length < n →
      ∃ k' errs', itemLoop step n (⟨k, errs⟩, ⟨ts, sc, u⟩) = (.ok (), (⟨k', errs'⟩, ⟨[], sc, u⟩)) ∧
        P (bs.foldl next q) k' ∧ (errs.toList ++ trail next msgs q bs).Sublist errs'.toList := by
  induction hi with
  | nil =>
    intro q k errs u n hp hn
    cases n with
    | zero => omega
    | succ n => exact ⟨k, errs, by rw [itemLoop_succ]; rfl, hp, by simp [trail]⟩
  | @last v b hv hs =>
    intro q k errs u n hp hn
    cases n with
    | zero => omega
    | succ n =>
      obtain ⟨k', errs', h1, h2, h3⟩ := hstep q v [] sc b hs (hf b (by simp)) (.inl rfl) k errs u hp
      rw [List.append_nil] at h1
      refine ⟨k', errs', ?_, h2, by simpa [trail] using h3⟩
      cases n with
      | zero =>
        simp only [Nat.zero_add, Nat.lt_one_iff, List.length_eq_zero_iff] at hn
        exact absurd hn hv
      | succ n =>
        rw [itemLoop_succ, if_neg (by simpa [isEmpty_iff] using hv), h1]
        dsimp only
        rw [if_pos ((isEmpty_iff _).2 rfl), itemLoop_succ, if_pos ((isEmpty_iff _).2 rfl)]
  | @cons v c rest b bs hc hs _ ih =>
    intro q k errs u n hp hn
    cases n with
    | zero => omega
    | succ n =>
      obtain ⟨k', errs', h1, h2, h3⟩ :=
        hstep q v (c :: rest) sc b hs (hf b (by simp)) (.inr ⟨c, rest, rfl, hc⟩) k errs u hp
      have he : itemLoop step (n + 1) (⟨k, errs⟩, ⟨v ++ c :: rest, sc, u⟩) =
          itemLoop step n (⟨k', errs'⟩, ⟨rest, sc, u⟩) := by
        rw [itemLoop_succ, if_neg (by simp [isEmpty_iff]), h1]
        dsimp only
        rw [if_neg (by simp [isEmpty_iff]), parseComma_comma hc]
      rw [he]
      obtain ⟨k2, e2, h4, h5, h6⟩ := ih (fun x hx => hf x (List.mem_cons_of_mem _ hx)) (next q b) k' errs' u n h2
        (by simp at hn; omega)
      refine ⟨k2, e2, h4, h5, ?_⟩
      rw [trail, ← List.append_assoc]
      exact (h3.append (List.Sublist.refl _)).trans h6

variable [Env] {func : Str → Span → M (Acc κ × Stream) Unit}

theorem parseStruct_in
    (hstep : ∀ q v rest sc b, seg v rest sc b → fits b → Boundary rest →
      TakesIn (keyStep func) (P q) (P (next q b)) (msgs q b) v rest sc)
    {l : List Stream} {bs : List β} (hi : ItemsAll seg l bs) (hf : ∀ b ∈ bs, fits b) (q : σ) (k : κ) (errs : Errors)
    (hp : P q k) :
    ∃ k' errs', parseStruct func (⟨k, errs⟩, l) = (.ok (), (⟨k', errs'⟩, l.map Stream.clear)) ∧
      P (bs.foldl next q) k' ∧ (errs.toList ++ trail next msgs q bs).Sublist errs'.toList := by
  rw [parseStruct_eq]
  show ∃ k' errs', forStreams.go (itemLoop (keyStep func)) ⟨k, errs⟩ l = _ ∧ _
  induction hi generalizing q k errs with
  | nil => exact ⟨k, errs, rfl, hp, by simp [trail]⟩
  | @cons s bs rest bs' h1 _ ih =>
    rw [forStreams.go]
    obtain ⟨k1, e1, h2, h3, h4⟩ := itemLoop_in hstep h1 (fun b hb => hf b (List.mem_append_left _ hb)) q k errs s.unexp
      (s.toks.length + 1) hp (Nat.lt_succ_self _)
    rw [h2]
    dsimp only
    obtain ⟨k2, e2, h5, h6, h7⟩ := ih (fun b hb => hf b (List.mem_append_right _ hb)) _ k1 e1 h3
    refine ⟨k2, e2, by rw [h5]; rfl, by rw [List.foldl_append]; exact h6, ?_⟩
    rw [trail_append, ← List.append_assoc]
    exact (h4.append (List.Sublist.refl _)).trans h7

end

/-- Reading a value: it is read, or fails with messages. -/
def Value {α : Type} (p : M Stream α) (v rest : List Tok) (sc : Span) (ms : List Msg) : Prop :=
  (ms = [] ∧ ReadsFully (p.map fun _ => ()) v rest sc ()) ∨ Unreadable (p.map fun _ => ()) v rest sc ms

/-- The keys of `once` that were seen have their value. -/
def Seen {κ : Type} (has : κ → String → Bool) (once seen : List String) (k : κ) : Prop :=
  ∀ key ∈ once, key ∈ seen → has k key = true

theorem mem_seen {key key' : String} {seen : List String} (h : key' ∈ (some key).toList ++ seen) (hne : key' ≠ key) :
    key' ∈ seen := by
  simp only [Option.toList_some, List.singleton_append, List.mem_cons] at h
  exact h.resolve_left hne

theorem kept_isNone {α : Type} (st : FieldStatus α) {x : FieldStatus α} (hx : x.isNone = false) :
    (if st.isNone then x else st).isNone = false := by
  cases hg : st.isNone <;> simp [hg, hx]

variable [Env]

section
variable {κ α : Type} {step : Str → Span → M (Acc κ × Stream) Unit} {key : String} {sp : Span} {v vt rest : List Tok}
  {sc : Span} {has : κ → String → Bool} {once seen : List String} {ms : List Msg}

omit [Env] in
/-- What is reported when a slot is taken. -/
theorem repeat_sub {st : FieldStatus α} {errs : Errors} {k : κ} (hp : Seen has once seen k)
    (hget : key ∈ once → st.isNone = !has k key) (name : Str) (hname : key ∈ once → name = key.toList) :
    (errs.toList ++ repeatMsg once seen (some key) sp).Sublist (dupErrs st name sp errs).toList := by
  unfold repeatMsg
  dsimp only
  split
  · rename_i h
    have := hget h.1
    rw [hp key h.1 h.2] at this
    simp only [Bool.not_true] at this
    rw [dupErrs, this, hname h.1]
    simp
  · simpa using dupErrs_sub ..

section
variable {get : κ → FieldStatus α} {put : FieldStatus α → κ → κ} {func : M Stream α} {name : Str}

theorem slot_in (hs : step (keyString [key.toList]) sp = slotItem get put func name sp)
    (hk : KeyToks [key.toList] sp v vt) (hb : Boundary rest) (hr : Value func vt rest sc ms)
    (hget : ∀ k, key ∈ once → (get k).isNone = !has k key)
    (hput : ∀ k st, key ∈ once → has (put st k) key = !st.isNone)
    (hoth : ∀ k st, ∀ key' ∈ once, key' ≠ key → has (put st k) key' = has k key')
    (hname : key ∈ once → name = key.toList) :
    TakesIn (keyStep step) (Seen has once seen) (Seen has once ((some key).toList ++ seen))
      (repeatMsg once seen (some key) sp ++ ms) v rest sc := by
  intro k errs u hp
  have hseen : ∀ st : FieldStatus α, st.isNone = false → Seen has once ((some key).toList ++ seen) (put st k) := by
    intro st hst key' h1 h2
    by_cases he : key' = key
    · subst he; rw [hput _ _ h1, hst]; rfl
    · rw [hoth _ _ _ h1 he]; exact hp _ h1 (mem_seen h2 he)
  have hsub := repeat_sub (errs := errs) (sp := sp) hp (hget k) name hname
  rcases hr with ⟨rfl, hr⟩ | hr
  · obtain ⟨x, hx⟩ := forget_ok hr u
    rw [keyStep_key _ hk hb, hs, slotItem_eq, hx]
    exact ⟨_, _, rfl, hseen _ (kept_isNone _ rfl), by simpa using hsub⟩
  · obtain ⟨e, v', hv, hm, hx⟩ := forget_err hr u
    rw [keyStep_key _ hk hb, hs, slotItem_eq, hx]
    refine ⟨_, _, by dsimp only; rw [skip_boundary hv hb], hseen _ (kept_isNone _ rfl), ?_⟩
    rw [Errors.toList_pushSyn, ← List.append_assoc]
    exact hsub.append hm
end

omit [Env] in
theorem seen_keep {k k' : κ} (hn : key ∉ once) (hp : Seen has once seen k)
    (hk : ∀ key' ∈ once, has k' key' = has k key') : Seen has once ((some key).toList ++ seen) k' := by
  intro key' h1 h2
  rw [hk _ h1]
  exact hp _ h1 (mem_seen h2 fun h => hn (h ▸ h1))

omit [Env] in
theorem repeat_none (hn : key ∉ once) : repeatMsg once seen (some key) sp = [] := by
  simp [repeatMsg, hn]

theorem push_in {put : κ → α → κ} {func : M Stream α} (hs : step (keyString [key.toList]) sp = pushItem func put)
    (hk : KeyToks [key.toList] sp v vt) (hb : Boundary rest) (hr : Value func vt rest sc ms) (hn : key ∉ once)
    (hoth : ∀ k x, ∀ key' ∈ once, has (put k x) key' = has k key') :
    TakesIn (keyStep step) (Seen has once seen) (Seen has once ((some key).toList ++ seen))
      (repeatMsg once seen (some key) sp ++ ms) v rest sc := by
  intro k errs u hp
  rw [repeat_none hn, List.nil_append]
  rcases hr with ⟨rfl, hr⟩ | hr
  · obtain ⟨x, hx⟩ := forget_ok hr u
    rw [keyStep_key _ hk hb, hs, pushItem, stepPush, hx]
    exact ⟨_, _, rfl, seen_keep hn hp (hoth k x), by simp⟩
  · obtain ⟨e, v', hv, hm, hx⟩ := forget_err hr u
    rw [keyStep_key _ hk hb, hs, pushItem, stepPush, hx]
    refine ⟨_, _, by dsimp only; rw [skip_boundary hv hb], seen_keep hn hp fun _ _ => rfl, ?_⟩
    rw [Errors.toList_pushSyn]
    exact (List.Sublist.refl _).append hm

section
variable {get : κ → Names} {put : Names → κ → κ} {what : Str} {own : Option Str}

theorem rename_in (hs : step (keyString ["rename".toList]) sp = onNames get put (renameItem what own sp))
    (hk : KeyToks ["rename".toList] sp v vt) (hb : Boundary rest)
    (hr : Value (identSpDict.named (txt "rename") sp) vt rest sc ms)
    (hget : ∀ k, (get k).rename.isNone = !has k "rename")
    (hput : ∀ k n, has (put n k) "rename" = !n.rename.isNone)
    (hoth : ∀ k n, ∀ key' ∈ once, key' ≠ "rename" → has (put n k) key' = has k key') :
    TakesIn (keyStep step) (Seen has once seen) (Seen has once ((some "rename").toList ++ seen))
      (repeatMsg once seen (some "rename") sp ++ ms) v rest sc := by
  intro k errs u hp
  have hseen : ∀ n : Names, n.rename.isNone = false → Seen has once ((some "rename").toList ++ seen) (put n k) := by
    intro n hst key' h1 h2
    by_cases he : key' = "rename"
    · subst he; rw [hput, hst]; rfl
    · rw [hoth _ _ _ h1 he]; exact hp _ h1 (mem_seen h2 he)
  have hsub := repeat_sub (errs := errs) (sp := sp) hp (fun _ => hget k) (txt "rename") fun _ => rfl
  rcases hr with ⟨rfl, hr⟩ | hr
  · obtain ⟨x, hx⟩ := forget_ok hr u
    rw [keyStep_key _ hk hb, hs]
    simp only [onNames, renameItem_eq, hx]
    split
    · refine ⟨_, _, by simp only [renameFailed]; rw [skip_nothing hb], hseen _ (kept_isNone _ rfl), ?_⟩
      simp only [Errors.toList_pushSyn, List.append_nil]
      exact hsub.trans (List.sublist_append_left ..)
    · split
      · refine ⟨_, _, by simp only [renameFailed]; rw [skip_nothing hb], hseen _ (kept_isNone _ rfl), ?_⟩
        simp only [Errors.toList_pushSyn, List.append_nil]
        exact hsub.trans (List.sublist_append_left ..)
      · exact ⟨_, _, rfl, hseen _ (kept_isNone _ rfl), by simpa using hsub⟩
  · obtain ⟨e, v', hv, hm, hx⟩ := forget_err hr u
    rw [keyStep_key _ hk hb, hs]
    simp only [onNames, renameItem_eq, hx, renameFailed]
    refine ⟨_, _, by rw [skip_boundary hv hb], hseen _ (kept_isNone _ rfl), ?_⟩
    rw [Errors.toList_pushSyn, ← List.append_assoc]
    exact hsub.append hm

theorem alias_in (hs : step (keyString ["alias".toList]) sp = onNames get put (aliasItem what own sp))
    (hk : KeyToks ["alias".toList] sp v vt) (hb : Boundary rest)
    (hr : Value (identSpDict.named (txt "alias") sp) vt rest sc ms) (hn : "alias" ∉ once)
    (hoth : ∀ k n, n.rename = (get k).rename → ∀ key' ∈ once, has (put n k) key' = has k key') :
    TakesIn (keyStep step) (Seen has once seen) (Seen has once ((some "alias").toList ++ seen))
      (repeatMsg once seen (some "alias") sp ++ ms) v rest sc := by
  intro k errs u hp
  rw [repeat_none hn, List.nil_append]
  rcases hr with ⟨rfl, hr⟩ | hr
  · obtain ⟨x, hx⟩ := forget_ok hr u
    rw [keyStep_key _ hk hb, hs]
    simp only [onNames, aliasItem, stepPush, hx]
    refine ⟨_, _, rfl, seen_keep hn hp (hoth _ _ ?_), ?_⟩
    · split
      · rfl
      · split <;> rfl
    · rw [List.append_nil]
      split
      · simp
      · split <;> simp
  · obtain ⟨e, v', hv, hm, hx⟩ := forget_err hr u
    rw [keyStep_key _ hk hb, hs]
    simp only [onNames, aliasItem, stepPush, hx]
    refine ⟨_, _, by rw [skip_boundary hv hb], seen_keep hn hp (hoth _ _ rfl), ?_⟩
    rw [Errors.toList_pushSyn]
    exact (List.Sublist.refl _).append hm
end

end

theorem unknownKey_in {κ : Type} {step : Str → Span → M (Acc κ × Stream) Unit} {segs : List Str} {sp : Span}
    {v vt rest : List Tok} {sc : Span} {P : κ → Prop} {names : List Str} (hk : KeyToks segs sp v vt)
    (hs : step (keyString segs) sp = checkUnknownItem (keyString segs) sp names ∨
      step (keyString segs) sp = unknownItem (keyString segs) sp names)
    (hn : keyString segs ∉ names) (hc : NoComma vt) (hb : Boundary rest) :
    TakesIn (keyStep step) P P (unknownError (keyString segs) sp names).toList v rest sc := by
  intro k errs u hp
  rw [keyStep_key _ hk hb]
  rcases hs with hs | hs
  · rw [hs]
    simp only [checkUnknownItem, checkUnknownAttribute, List.contains_eq_mem, decide_eq_true_eq, hn, if_false]
    exact ⟨_, _, by rw [skip_boundary hc hb], hp, by simp⟩
  · rw [hs]
    simp only [unknownItem]
    exact ⟨_, _, by rw [skip_boundary hc hb], hp, by simp⟩

/-- An entry is known, with messages about its value, or unknown. -/
theorem PlacedSeg.cases' {readers : List (String × Reader)} {v rest : List Tok} {sc : Span} {b : Entry × Span}
    (h : PlacedSeg readers v rest sc b) :
    (∃ key p vt ms, (key, p) ∈ readers ∧ KeyToks [key.toList] b.2 v vt ∧
      ((ms = [] ∧ ReadsFully (p b.2) vt rest sc ()) ∨ Unreadable (p b.2) vt rest sc ms) ∧ b.1.key? = some key ∧
      ∀ names, b.1.msgs names = ms) ∨
    (∃ segs vt, KeyToks segs b.2 v vt ∧ (∀ key ∈ readers.map (·.1), keyString segs ≠ key.toList) ∧ NoComma vt ∧
      b.1.key? = none ∧ ∀ names, b.1.msgs names = (unknownError (keyString segs) b.2 (names.map String.toList)).toList) := by
  cases h with
  | fine h1 h2 h3 => exact .inl ⟨_, _, _, [], h1, h2, .inl ⟨rfl, h3⟩, rfl, fun _ => rfl⟩
  | unknown h1 h2 h3 => exact .inr ⟨_, _, h1, h2, h3, rfl, fun _ => rfl⟩
  | unread h1 h2 h3 => exact .inl ⟨_, _, _, _, h1, h2, .inr h3, rfl, fun _ => rfl⟩

theorem entryMsgs_eq (names once seen : List String) (bs : List (Entry × Span)) :
    entryMsgs names once seen bs = trail (fun seen (b : Entry × Span) => b.1.key?.toList ++ seen)
      (fun seen b => repeatMsg once seen b.1.key? b.2 ++ b.1.msgs names) seen bs := by
  induction bs generalizing seen with
  | nil => rfl
  | cons b bs ih => rw [entryMsgs, ih]; rfl

/-- A key that is given again is among the messages. -/
theorem entryMsgs_again {names once : List String} {bs : List (Entry × Span)} {key : String} {sp : Span}
    (h : GivenAgain once bs key sp) : ⟨sp, .duplicateAttr key.toList⟩ ∈ entryMsgs names once [] bs := by
  obtain ⟨h1, l1, b1, sp1, l2, b2, l3, rfl, h2, h3⟩ := h
  have hfold : ∀ (l : List (Entry × Span)) (seen : List String), key ∈ seen →
      key ∈ l.foldl (fun seen b => b.1.key?.toList ++ seen) seen := by
    intro l
    induction l with
    | nil => exact fun _ h => h
    | cons b l ih => exact fun seen h => ih _ (List.mem_append_right _ h)
  rw [entryMsgs_eq, trail_append, trail, trail_append, trail]
  refine List.mem_append_right _ (List.mem_append_right _ (List.mem_append_right _ (List.mem_append_left _
    (List.mem_append_left _ ?_))))
  have := hfold l2 (b1.key?.toList ++ l1.foldl (fun seen (b : Entry × Span) => b.1.key?.toList ++ seen) [])
    (by simp [h2])
  simp only [repeatMsg, h3, h1, this, and_self, if_true, List.mem_singleton]

end Deluxe
