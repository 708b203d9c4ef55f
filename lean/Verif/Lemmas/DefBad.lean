import Verif.Spec.DefBad
import Verif.Lemmas.DefTypes
/-!
# Reading attributes with mistakes
-/
namespace Deluxe

section
variable {κ β : Type} {seg : List Tok → List Tok → Span → β → Prop} {step : M (Acc κ × Stream) Unit}
  {msgs : β → List Msg} {fits : β → Prop}

/-- A step takes its item and reports what is to be reported about it; or the item does not fit, and there are
errors. -/
def Takes (step : M (Acc κ × Stream) Unit) (msgs : List Msg) (fits : Prop) (v rest : List Tok) (sc : Span) : Prop :=
  ∀ k errs u,
    (∃ k' errs', step (⟨k, errs⟩, ⟨v ++ rest, sc, u⟩) = (.ok (), (⟨k', errs'⟩, ⟨rest, sc, u⟩)) ∧
      (errs.toList ++ msgs).Sublist errs'.toList) ∨
    (¬ fits ∧ (step (⟨k, errs⟩, ⟨v ++ rest, sc, u⟩)).2.1.errs.toList ≠ [])

theorem itemLoop_entries
    (hstep : ∀ v rest sc b, seg v rest sc b → Boundary rest → Takes step (msgs b) (fits b) v rest sc)
    (hmono : ∀ st, st.1.errs.toList <+: (step st).2.1.errs.toList)
    {sc : Span} {ts : List Tok} {bs : List β} (hi : Items seg sc ts bs) :
    ∀ (k : κ) (errs : Errors) (u : Option Span) (n : Nat), ts.length < n →
      (∃ k' errs', itemLoop step n (⟨k, errs⟩, ⟨ts, sc, u⟩) = (.ok (), (⟨k', errs'⟩, ⟨[], sc, u⟩)) ∧
        (errs.toList ++ bs.flatMap msgs).Sublist errs'.toList) ∨
      (¬ (∀ b ∈ bs, fits b) ∧ (itemLoop step n (⟨k, errs⟩, ⟨ts, sc, u⟩)).2.1.errs.toList ≠ []) := by
  have hkeep : ∀ n (st : Acc κ × Stream), st.1.errs.toList ≠ [] → (itemLoop step n st).2.1.errs.toList ≠ [] :=
    itemLoop_inv (P := fun acc : Acc κ => acc.errs.toList ≠ []) fun st h => ne_nil_of_prefix (hmono st) h
  have hbad : ∀ n (st : Acc κ × Stream), st.2.toks ≠ [] → (step st).2.1.errs.toList ≠ [] →
      (itemLoop step (n + 1) st).2.1.errs.toList ≠ [] := by
    intro n st hne h
    rw [itemLoop_succ, if_neg (by simpa [isEmpty_iff] using hne)]
    split
    · rename_i st1 hst
      rw [hst] at h
      split
      · exact hkeep _ _ h
      · split
        · exact hkeep _ _ h
        · exact h
        · exact h
    · rename_i hst; rw [hst] at h; exact h
    · rename_i hst; rw [hst] at h; exact h
  induction hi with
  | nil =>
    intro k errs u n hn
    cases n with
    | zero => omega
    | succ n => exact .inl ⟨k, errs, by rw [itemLoop_succ]; rfl, by simp⟩
  | @last v b hv hs =>
    intro k errs u n hn
    cases n with
    | zero => omega
    | succ n =>
      rcases hstep v [] sc b hs (.inl rfl) k errs u with ⟨k', errs', h1, h2⟩ | ⟨h1, h2⟩
      · left
        rw [List.append_nil] at h1
        refine ⟨k', errs', ?_, by simpa using h2⟩
        cases n with
        | zero =>
          simp only [Nat.zero_add, Nat.lt_one_iff, List.length_eq_zero_iff] at hn
          exact absurd hn hv
        | succ n =>
          rw [itemLoop_succ, if_neg (by simpa [isEmpty_iff] using hv), h1]
          dsimp only
          rw [if_pos ((isEmpty_iff _).2 rfl), itemLoop_succ, if_pos ((isEmpty_iff _).2 rfl)]
      · right
        rw [List.append_nil] at h2
        exact ⟨fun h => h1 (h b (by simp)), hbad n _ hv h2⟩
  | @cons v c rest b bs hc hs _ ih =>
    intro k errs u n hn
    cases n with
    | zero => omega
    | succ n =>
      rcases hstep v (c :: rest) sc b hs (.inr ⟨c, rest, rfl, hc⟩) k errs u with ⟨k', errs', h1, h2⟩ | ⟨h1, h2⟩
      · have he : itemLoop step (n + 1) (⟨k, errs⟩, ⟨v ++ c :: rest, sc, u⟩) =
            itemLoop step n (⟨k', errs'⟩, ⟨rest, sc, u⟩) := by
          rw [itemLoop_succ, if_neg (by simp [isEmpty_iff]), h1]
          dsimp only
          rw [if_neg (by simp [isEmpty_iff]), parseComma_comma hc]
        rw [he]
        rcases ih k' errs' u n (by simp at hn; omega) with ⟨k2, e2, h3, h4⟩ | ⟨h3, h4⟩
        · refine .inl ⟨k2, e2, h3, ?_⟩
          rw [List.flatMap_cons, ← List.append_assoc]
          exact (h2.append (List.Sublist.refl _)).trans h4
        · exact .inr ⟨fun h => h3 fun x hx => h x (List.mem_cons_of_mem _ hx), h4⟩
      · exact .inr ⟨fun h => h1 (h b (by simp)), hbad n _ (by simp) h2⟩

end

section
variable [Env]
variable {κ β : Type} {seg : List Tok → List Tok → Span → β → Prop} {msgs : β → List Msg} {fits : β → Prop}
  {func : Str → Span → M (Acc κ × Stream) Unit}

theorem parseStruct_entries
    (hstep : ∀ v rest sc b, seg v rest sc b → Boundary rest → Takes (keyStep func) (msgs b) (fits b) v rest sc)
    (hmono : ∀ path span st, st.1.errs.toList <+: (func path span st).2.1.errs.toList)
    {l : List Stream} {bs : List β} (hi : ItemsAll seg l bs) (k : κ) (errs : Errors) :
    (∃ k' errs', parseStruct func (⟨k, errs⟩, l) = (.ok (), (⟨k', errs'⟩, l.map Stream.clear)) ∧
      (errs.toList ++ bs.flatMap msgs).Sublist errs'.toList) ∨
    (¬ (∀ b ∈ bs, fits b) ∧ (parseStruct func (⟨k, errs⟩, l)).2.1.errs.toList ≠ []) := by
  have hm : ∀ st : Acc κ × Stream, st.1.errs.toList <+: (keyStep func st).2.1.errs.toList := by
    rintro ⟨acc, s⟩
    rw [keyStep_eq]
    split
    · rename_i s1 _
      exact hmono _ _ (acc, s1)
    · exact List.prefix_refl _
    · exact List.prefix_refl _
  have hgo : ∀ (l : List Stream) (acc : Acc κ), acc.errs.toList ≠ [] →
      (forStreams.go (itemLoop (keyStep func)) acc l).2.1.errs.toList ≠ [] := by
    intro l acc h
    have := parseStruct_inv (P := fun acc : Acc κ => acc.errs.toList ≠ [])
      (fun p sp st h => ne_nil_of_prefix (hmono p sp st) h) acc l h
    rw [parseStruct_eq] at this
    exact this
  rw [parseStruct_eq]
  show (∃ k' errs', forStreams.go (itemLoop (keyStep func)) ⟨k, errs⟩ l = _ ∧ _) ∨
    _ ∧ (forStreams.go (itemLoop (keyStep func)) ⟨k, errs⟩ l).2.1.errs.toList ≠ []
  induction hi generalizing k errs with
  | nil => exact .inl ⟨k, errs, rfl, by simp⟩
  | @cons s bs rest bs' h1 _ ih =>
    rw [forStreams.go]
    rcases itemLoop_entries hstep hm h1 k errs s.unexp (s.toks.length + 1) (Nat.lt_succ_self _) with
      ⟨k1, e1, h2, h3⟩ | ⟨h2, h3⟩
    · rw [h2]
      dsimp only
      rcases ih k1 e1 with ⟨k2, e2, h4, h5⟩ | ⟨h4, h5⟩
      · refine .inl ⟨k2, e2, by rw [h4]; rfl, ?_⟩
        rw [List.flatMap_append, ← List.append_assoc]
        exact (h3.append (List.Sublist.refl _)).trans h5
      · exact .inr ⟨fun h => h4 fun x hx => h x (List.mem_append_right _ hx), h5⟩
    · refine .inr ⟨fun h => h2 fun x hx => h x (List.mem_append_left _ hx), ?_⟩
      split
      · rename_i k' s' hb
        rw [hb] at h3
        exact hgo _ _ h3
      · rename_i hb
        rw [hb] at h3
        exact h3

end

/-! ## Single steps -/

theorem skip_boundary {v rest : List Tok} (hv : NoComma v) (hb : Boundary rest) (sc : Span) (u : Option Span) :
    skipMetaItem ⟨v ++ rest, sc, u⟩ = ⟨rest, sc, u⟩ := by
  rcases hb with rfl | ⟨c, r, rfl, hc⟩
  · exact c03_skip_exact v [] sc u hv (.inl rfl)
  · exact c03_skip_exact v (c :: r) sc u hv (.inr ⟨c, r, rfl, hc⟩)

theorem skip_nothing {rest : List Tok} (hb : Boundary rest) (sc : Span) (u : Option Span) :
    skipMetaItem ⟨rest, sc, u⟩ = ⟨rest, sc, u⟩ := skip_boundary (v := []) (by simp [NoComma]) hb sc u

section
variable {α : Type} {p : M Stream α} {vt rest : List Tok} {sc : Span}

theorem forget_ok (h : ReadsFully (p.map fun _ => ()) vt rest sc ()) (u : Option Span) :
    ∃ x, p ⟨vt ++ rest, sc, u⟩ = (.ok x, ⟨rest, sc, u⟩) := by
  have := h u
  simp only [M.map] at this
  generalize p ⟨vt ++ rest, sc, u⟩ = y at this
  obtain ⟨r, s⟩ := y
  cases r with
  | ok x => exact ⟨x, by simpa [Res.map] using this⟩
  | err e => simp [Res.map] at this
  | panic => simp [Res.map] at this

theorem forget_err {ms : List Msg} (h : Unreadable (p.map fun _ => ()) vt rest sc ms) (u : Option Span) :
    ∃ e v', NoComma v' ∧ ms.Sublist e.toList ∧ p ⟨vt ++ rest, sc, u⟩ = (.err e, ⟨v' ++ rest, sc, u⟩) := by
  obtain ⟨e, v', hv, hm, this⟩ := h.2 u
  refine ⟨e, v', hv, hm, ?_⟩
  simp only [M.map] at this
  generalize p ⟨vt ++ rest, sc, u⟩ = y at this
  obtain ⟨r, s⟩ := y
  cases r with
  | ok x => simp [Res.map] at this
  | err e => simpa [Res.map] using this
  | panic => simp [Res.map] at this
end

theorem dupErrs_sub {α : Type} (st : FieldStatus α) (name : Str) (span : Span) (errs : Errors) :
    errs.toList.Sublist (dupErrs st name span errs).toList := (dupErrs_mono st name span errs).sublist

variable [Env]

section
variable {κ α : Type} {step : Str → Span → M (Acc κ × Stream) Unit} {key : Str} {sp : Span} {v vt rest : List Tok}
  {sc : Span} {fits : Prop}

section
variable {get : κ → FieldStatus α} {put : FieldStatus α → κ → κ} {func : M Stream α} {name : Str}

theorem slot_takes (hs : step (keyString [key]) sp = slotItem get put func name sp) (hk : KeyToks [key] sp v vt)
    (hb : Boundary rest) (hr : ReadsFully (func.map fun _ => ()) vt rest sc ()) :
    Takes (keyStep step) [] fits v rest sc := by
  intro k errs u
  obtain ⟨x, hx⟩ := forget_ok hr u
  left
  rw [keyStep_key _ hk hb, hs, slotItem_eq, hx]
  exact ⟨_, _, rfl, by simpa using dupErrs_sub ..⟩

theorem slot_reports {ms : List Msg} (hs : step (keyString [key]) sp = slotItem get put func name sp)
    (hk : KeyToks [key] sp v vt) (hb : Boundary rest) (hr : Unreadable (func.map fun _ => ()) vt rest sc ms) :
    Takes (keyStep step) ms fits v rest sc := by
  intro k errs u
  obtain ⟨e, v', hv, hm, hx⟩ := forget_err hr u
  left
  rw [keyStep_key _ hk hb, hs, slotItem_eq, hx]
  refine ⟨_, _, by dsimp only; rw [skip_boundary hv hb], ?_⟩
  rw [Errors.toList_pushSyn]
  exact (dupErrs_sub ..).append hm
end

section
variable {put : κ → α → κ} {func : M Stream α}

theorem push_takes (hs : step (keyString [key]) sp = pushItem func put) (hk : KeyToks [key] sp v vt)
    (hb : Boundary rest) (hr : ReadsFully (func.map fun _ => ()) vt rest sc ()) :
    Takes (keyStep step) [] fits v rest sc := by
  intro k errs u
  obtain ⟨x, hx⟩ := forget_ok hr u
  left
  rw [keyStep_key _ hk hb, hs, pushItem, stepPush, hx]
  exact ⟨_, _, rfl, by simp⟩

theorem push_reports {ms : List Msg} (hs : step (keyString [key]) sp = pushItem func put)
    (hk : KeyToks [key] sp v vt) (hb : Boundary rest) (hr : Unreadable (func.map fun _ => ()) vt rest sc ms) :
    Takes (keyStep step) ms fits v rest sc := by
  intro k errs u
  obtain ⟨e, v', hv, hm, hx⟩ := forget_err hr u
  left
  rw [keyStep_key _ hk hb, hs, pushItem, stepPush, hx]
  refine ⟨_, _, by dsimp only; rw [skip_boundary hv hb], ?_⟩
  rw [Errors.toList_pushSyn]
  exact (List.Sublist.refl _).append hm
end

section
variable {get : κ → Names} {put : Names → κ → κ} {what : Str} {own : Option Str}

theorem rename_takes (hs : step (keyString [key]) sp = onNames get put (renameItem what own sp))
    (hk : KeyToks [key] sp v vt) (hb : Boundary rest)
    (hr : ReadsFully ((identSpDict.named (txt "rename") sp).map fun _ => ()) vt rest sc ()) :
    Takes (keyStep step) [] fits v rest sc := by
  intro k errs u
  obtain ⟨x, hx⟩ := forget_ok hr u
  left
  rw [keyStep_key _ hk hb, hs]
  simp only [onNames, renameItem_eq, hx]
  split
  · refine ⟨_, _, by simp only [renameFailed]; rw [skip_nothing hb], ?_⟩
    simp only [Errors.toList_pushSyn, List.append_nil]
    exact (dupErrs_sub ..).trans (List.sublist_append_left ..)
  · split
    · refine ⟨_, _, by simp only [renameFailed]; rw [skip_nothing hb], ?_⟩
      simp only [Errors.toList_pushSyn, List.append_nil]
      exact (dupErrs_sub ..).trans (List.sublist_append_left ..)
    · exact ⟨_, _, rfl, by simpa using dupErrs_sub ..⟩

theorem rename_reports {ms : List Msg} (hs : step (keyString [key]) sp = onNames get put (renameItem what own sp))
    (hk : KeyToks [key] sp v vt) (hb : Boundary rest)
    (hr : Unreadable ((identSpDict.named (txt "rename") sp).map fun _ => ()) vt rest sc ms) :
    Takes (keyStep step) ms fits v rest sc := by
  intro k errs u
  obtain ⟨e, v', hv, hm, hx⟩ := forget_err hr u
  left
  rw [keyStep_key _ hk hb, hs]
  simp only [onNames, renameItem_eq, hx, renameFailed]
  refine ⟨_, _, by rw [skip_boundary hv hb], ?_⟩
  rw [Errors.toList_pushSyn]
  exact (dupErrs_sub ..).append hm

theorem alias_takes (hs : step (keyString [key]) sp = onNames get put (aliasItem what own sp))
    (hk : KeyToks [key] sp v vt) (hb : Boundary rest)
    (hr : ReadsFully ((identSpDict.named (txt "alias") sp).map fun _ => ()) vt rest sc ()) :
    Takes (keyStep step) [] fits v rest sc := by
  intro k errs u
  obtain ⟨x, hx⟩ := forget_ok hr u
  left
  rw [keyStep_key _ hk hb, hs]
  simp only [onNames, aliasItem, stepPush, hx]
  refine ⟨_, _, rfl, ?_⟩
  rw [List.append_nil]
  split
  · simp
  · split <;> simp

theorem alias_reports {ms : List Msg} (hs : step (keyString [key]) sp = onNames get put (aliasItem what own sp))
    (hk : KeyToks [key] sp v vt) (hb : Boundary rest)
    (hr : Unreadable ((identSpDict.named (txt "alias") sp).map fun _ => ()) vt rest sc ms) :
    Takes (keyStep step) ms fits v rest sc := by
  intro k errs u
  obtain ⟨e, v', hv, hm, hx⟩ := forget_err hr u
  left
  rw [keyStep_key _ hk hb, hs]
  simp only [onNames, aliasItem, stepPush, hx]
  refine ⟨_, _, by rw [skip_boundary hv hb], ?_⟩
  rw [Errors.toList_pushSyn]
  exact (List.Sublist.refl _).append hm
end

/-- A key that is not allowed. -/
theorem misplaced_takes {f : M (Acc κ × Stream) Unit} {ms : List Msg} (hs : step (keyString [key]) sp = f)
    (hf : ∀ st, (f st).2.1.errs.toList ≠ []) (hk : KeyToks [key] sp v vt) (hb : Boundary rest) (hn : ¬ fits) :
    Takes (keyStep step) ms fits v rest sc := by
  intro k errs u
  right
  rw [keyStep_key _ hk hb, hs]
  exact ⟨hn, hf _⟩

end

/-- A key that does not exist. -/
theorem unknown_takes {κ : Type} {step : Str → Span → M (Acc κ × Stream) Unit} {segs : List Str} {sp : Span}
    {v vt rest : List Tok} {sc : Span} {fits : Prop} {names : List Str} (hk : KeyToks segs sp v vt)
    (hs : step (keyString segs) sp = checkUnknownItem (keyString segs) sp names ∨
      step (keyString segs) sp = unknownItem (keyString segs) sp names)
    (hn : keyString segs ∉ names) (hc : NoComma vt) (hb : Boundary rest) :
    Takes (keyStep step) (unknownError (keyString segs) sp names).toList fits v rest sc := by
  intro k errs u
  left
  rw [keyStep_key _ hk hb]
  rcases hs with hs | hs
  · rw [hs]
    simp only [checkUnknownItem, checkUnknownAttribute, List.contains_eq_mem, decide_eq_true_eq, hn, if_false]
    exact ⟨_, _, by rw [skip_boundary hc hb], by simp⟩
  · rw [hs]
    simp only [unknownItem]
    exact ⟨_, _, by rw [skip_boundary hc hb], by simp⟩

end Deluxe
