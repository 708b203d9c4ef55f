import Verif.Lemmas.Reads
/-!
# Reading keyed items
-/
namespace Deluxe

theorem boundary_noColon {v rest : List Tok} (hv : ¬ StartsColon2 v) (hr : Boundary rest) :
    ¬ StartsColon2 (v ++ rest) := by
  rintro ⟨a, j, b, ts, h⟩
  rcases hr with rfl | ⟨c, r, rfl, j', sp', rfl⟩
  · exact hv ⟨a, j, b, ts, by simpa using h⟩
  · cases v with
    | nil => simp at h
    | cons x v =>
      cases v with
      | nil => simp at h
      | cons y v => exact hv ⟨a, j, b, v, by simp_all⟩

theorem SegToks.nonempty {ss ts} (h : SegToks ss ts) : ts ≠ [] := by cases h <;> simp

theorem getLast?_append_ne {α : Type} (a : List α) {b : List α} (hb : b ≠ []) :
    (a ++ b).getLast? = b.getLast? := by
  rw [List.getLast?_append]
  cases h : b.getLast? with
  | none => exact absurd (List.getLast?_eq_none_iff.1 h) hb
  | some x => rfl

theorem pathLoop_append {ss ts} (h : SegToks ss ts) : ∃ sps : List (Str × Span), sps ≠ [] ∧
    sps.map (·.1) = ss ∧ (sps.map (·.2)).head? = (ts.map Tok.span).head? ∧
    (sps.map (·.2)).tail.getLast? = (ts.map Tok.span).tail.getLast? ∧
    (sps.map (·.2)).getLast? = (ts.map Tok.span).getLast? ∧
    ∀ rest, ¬ StartsColon2 rest → pathLoop (ts ++ rest) = (sps, false, rest) := by
  induction h with
  | one s sp =>
    refine ⟨[(s, sp)], by simp, rfl, rfl, rfl, rfl, fun rest hr => ?_⟩
    simp only [List.cons_append, List.nil_append]
    unfold pathLoop
    split
    · rename_i heq
      simp only [List.cons.injEq] at heq
      exact absurd ⟨_, _, _, _, heq.2⟩ hr
    · rename_i heq
      simp only [List.cons.injEq, Tok.ident.injEq] at heq
      obtain ⟨⟨rfl, rfl⟩, rfl⟩ := heq
      rfl
    · rename_i hno
      exact absurd rfl (hno s sp rest)
  | @cons s sp a b j ss ts hts ih =>
    obtain ⟨sps, i1, i2, i3, i4, i5, i6⟩ := ih
    have hts0 : ts.map Tok.span ≠ [] := by simpa using hts.nonempty
    have hsp0 : sps.map (·.2) ≠ [] := by simpa using i1
    refine ⟨(s, sp) :: sps, by simp, by simp [i2], rfl, ?_, ?_, fun rest hr => ?_⟩
    · simp only [List.map_cons, List.tail_cons]
      rw [i5]
      exact (getLast?_append_ne [_, _] hts0).symm
    · simp only [List.map_cons]
      rw [show sp :: sps.map (·.2) = [sp] ++ sps.map (·.2) from rfl, getLast?_append_ne _ hsp0, i5]
      exact (getLast?_append_ne [_, _, _] hts0).symm
    · have := i6 rest hr
      simp only [List.cons_append]
      rw [pathLoop]
      simp [this, i1]

theorem pathSpan_eq [Env] (pt : List Tok) :
    pathSpan pt = joinSpans ((pt.map Tok.span).headD callSite) (pt.map Tok.span).tail := by
  unfold pathSpan joinSpans
  dsimp only
  cases (pt.map Tok.span).tail.getLast? <;> rfl

/-- A key is read with its span whatever follows. -/
theorem parseAnyPath_key [Env] {lead segs pt} (h : PathToks lead segs pt) (rest : List Tok)
    (sc : Span) (u : Option Span) (hr : ¬ StartsColon2 rest) :
    parseAnyPath ⟨pt ++ rest, sc, u⟩ = (.ok ⟨lead, segs, pathSpan pt⟩, ⟨rest, sc, u⟩) := by
  cases h with
  | plain hts =>
    obtain ⟨sps, h1, h2, h3, h4, _, h6⟩ := pathLoop_append hts
    have hl : leadColon (pt ++ rest) = ([], pt ++ rest) := by cases hts <;> rfl
    have h1' : sps.isEmpty = false := by simpa using h1
    simp only [parseAnyPath, hl, h6 rest hr, h1', h2, Bool.false_eq_true, if_false, List.nil_append,
      List.isEmpty_nil, Bool.not_true, pathSpan_eq, joinSpans, h4, List.headD_eq_head?_getD, h3]
  | @lead a b j ss ts hts =>
    obtain ⟨sps, h1, h2, h3, _, h5, h6⟩ := pathLoop_append hts
    have h1' : sps.isEmpty = false := by simpa using h1
    have e1 : (b :: sps.map (·.2)).getLast? = (b :: ts.map Tok.span).getLast? := by
      rw [show b :: sps.map (·.2) = [b] ++ sps.map (·.2) from rfl,
        getLast?_append_ne _ (by simpa using h1), h5]
      exact (getLast?_append_ne [b] (by simpa using hts.nonempty)).symm
    simp only [parseAnyPath, List.cons_append, leadColon, h6 rest hr, h1', h2, Bool.false_eq_true,
      if_false, List.isEmpty_cons, Bool.not_false, List.nil_append, List.headD_cons, List.tail_cons,
      pathSpan_eq, joinSpans, List.map_cons, e1, Tok.span]

theorem PathToks.nonempty {ld ss ts} (h : PathToks ld ss ts) : ts ≠ [] := by
  cases h with
  | plain h => exact h.nonempty
  | lead => simp

/-- An item with a key: the key, then what `f` reads after it. -/
def keyed [Env] {β : Type} (f : Str → Span → M Stream β) : M Stream β := fun s =>
  match parseAnyPath s with
  | (.ok p, s1) => f (keyString p.segs) p.span s1
  | (.err e, s1) => (.err e, s1)
  | (.panic, s1) => (.panic, s1)

theorem keyed_key [Env] {β : Type} (f : Str → Span → M Stream β) {segs sp v vt}
    (h : KeyToks segs sp v vt) {rest : List Tok} (hr : Boundary rest) (sc : Span) (u : Option Span) :
    keyed f ⟨v ++ rest, sc, u⟩ = f (keyString segs) sp ⟨vt ++ rest, sc, u⟩ := by
  cases h with
  | mk hp hc =>
    simp only [keyed, List.append_assoc]
    rw [parseAnyPath_key hp _ _ _ (boundary_noColon hc hr)]

theorem keyed_good [Env] {β : Type} {f : Str → Span → M Stream β} (hf : ∀ k sp, Good (f k sp)) :
    Good (keyed f) := by
  intro s
  have h := parseAnyPath_good s
  simp only [keyed]
  cases hp : parseAnyPath s with
  | mk r s1 =>
    rw [hp] at h
    cases r with
    | ok p => exact ⟨(hf _ _ s1).1, Adv.trans (hf _ _ s1).2 h.2⟩
    | err e => exact ⟨by simp, h.2⟩
    | panic => exact absurd rfl h.1


end Deluxe
