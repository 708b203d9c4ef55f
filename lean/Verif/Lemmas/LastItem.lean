import Verif.Spec.LastItem
import Verif.Lemmas.Local
/-!
# Parsers for which the end of a list is like a comma
-/
namespace Deluxe

variable {α β : Type}

theorem Boundary.cases_cons {rest : List Tok} (h : Boundary rest) : rest = [] ∨ ∃ c r, rest = c :: r ∧ Comma c := h

theorem EndsAlike.of_cases {p : M Stream α}
    (hnil : ∀ sc u, (∃ x u', ∀ rest, Boundary rest → p ⟨rest, sc, u⟩ = (.ok x, ⟨rest, sc, u'⟩)) ∨
      (∀ rest, Boundary rest → ∀ x s', p ⟨rest, sc, u⟩ ≠ (.ok x, s')))
    (hcons : ∀ t v sc u, NoComma (t :: v) →
      (∃ x w u', w <:+ t :: v ∧ ∀ rest, Boundary rest → p ⟨t :: (v ++ rest), sc, u⟩ = (.ok x, ⟨w ++ rest, sc, u'⟩)) ∨
      (∀ rest, Boundary rest → ∀ x s', p ⟨t :: (v ++ rest), sc, u⟩ ≠ (.ok x, s'))) : EndsAlike p := by
  intro v sc u hv
  cases v with
  | nil =>
    rcases hnil sc u with ⟨x, u', h⟩ | h
    · exact .inl ⟨x, [], u', List.suffix_refl _, h⟩
    · exact .inr h
  | cons t v => exact hcons t v sc u hv

theorem EndsAlike.fails {p : M Stream α} (h : ∀ s x s', p s ≠ (.ok x, s')) : EndsAlike p :=
  fun _ _ _ _ => .inr fun _ _ x s' => h _ x s'

theorem EndsAlike.mapRes {m : M Stream α} {g : Res α → Res β} (hg : ∀ r y, g r = .ok y → ∃ x, r = .ok x) (hm : EndsAlike m) :
    EndsAlike (m.mapRes g) := by
  intro v sc u hv
  rcases hm v sc u hv with ⟨x, w, u', h1, h2⟩ | h2
  · cases hx : g (.ok x) with
    | ok y => exact .inl ⟨y, w, u', h1, fun rest hb => by simp only [M.mapRes, h2 rest hb, hx]⟩
    | err e => exact .inr fun rest hb y s' h => by simp only [M.mapRes, h2 rest hb, hx] at h; cases h
    | panic => exact .inr fun rest hb y s' h => by simp only [M.mapRes, h2 rest hb, hx] at h; cases h
  · refine .inr fun rest hb y s' h => ?_
    simp only [M.mapRes, Prod.mk.injEq] at h
    obtain ⟨x, hx⟩ := hg _ _ h.1
    exact h2 rest hb x _ (Prod.ext hx rfl)

theorem EndsAlike.map {m : M Stream α} (g : α → β) (hm : EndsAlike m) : EndsAlike (m.map g) :=
  hm.mapRes fun r y h => by cases r <;> simp [Res.map] at h ⊢

/-- Another parser that does the same. -/
theorem EndsAlike.congr {p q : M Stream α} (h : EndsAlike q) (he : ∀ s, p s = q s) : EndsAlike p := by
  have : p = q := funext he
  rw [this]; exact h

/-- A parser followed by a conversion. -/
theorem EndsAlike.convert {p : M Stream α} (h : EndsAlike p) {conv : Span → α → Res β}
    (hc : ∀ a, (∃ y, ∀ sp, conv sp a = .ok y) ∨ ∀ sp y, conv sp a ≠ .ok y) :
    EndsAlike (fun s => match p s with
      | (.ok a, s') => (conv s.span a, s')
      | (.err e, s') => (.err e, s')
      | (.panic, s') => (.panic, s')) := by
  intro v sc u hv
  rcases h v sc u hv with ⟨x, w, u', h1, h2⟩ | h2
  · rcases hc x with ⟨y, hy⟩ | hn
    · exact .inl ⟨y, w, u', h1, fun rest hb => by simp only [h2 rest hb, hy]⟩
    · refine .inr fun rest hb y s' h => ?_
      simp only [h2 rest hb, Prod.mk.injEq] at h
      exact hn _ _ h.1
  · refine .inr fun rest hb y s' h => ?_
    rcases hp : p ⟨v ++ rest, sc, u⟩ with ⟨r, s1⟩
    simp only [hp] at h
    cases r with
    | ok a => exact h2 rest hb a s1 hp
    | err e => cases h
    | panic => cases h

/-! ## Groups -/

theorem withContent_ends (d : Delim) (f : M Stream α) : EndsAlike (withContent d f) := by
  refine .of_cases (fun sc u => ?_) fun t v sc u hv => ?_
  · refine .inr fun rest hb x s' h => ?_
    rcases hb with rfl | ⟨c, r, rfl, j, sp, rfl⟩ <;> simp [withContent, enter] at h
  · cases t with
    | group d' inner sp close =>
      by_cases hd : d' = d
      · subst hd
        cases hf : (f ⟨inner, close, u⟩).1 with
        | ok x =>
          exact .inl ⟨x, v, (Stream.dropChild ⟨[], sc, u⟩ (f ⟨inner, close, u⟩).2).unexp,
            List.suffix_cons _ _, fun rest _ => by
              simp only [withContent, enter, ↓reduceIte, Stream.dropChild, hf]⟩
        | err e =>
          refine .inr fun rest _ x s' h => ?_
          simp only [withContent, enter, ↓reduceIte, hf] at h
          cases h
        | panic =>
          refine .inr fun rest _ x s' h => ?_
          simp only [withContent, enter, ↓reduceIte, hf] at h
          cases h
      · refine .inr fun rest _ x s' h => ?_
        simp [withContent, enter, hd] at h
    | ident x sp => exact .inr fun rest _ x s' h => by simp [withContent, enter] at h
    | lit x sp => exact .inr fun rest _ x s' h => by simp [withContent, enter] at h
    | punct x j sp => exact .inr fun rest _ x s' h => by simp [withContent, enter] at h

theorem parseDelimitedWith_ends (d : Delim) (f : M Stream α) : EndsAlike (parseDelimitedWith d f) := withContent_ends d _

theorem parseDelimitedMetaItem_ends (d : Delim) (inline : Mode → M (List Stream) α) (m : Mode) :
    EndsAlike (parseDelimitedMetaItem d inline m) := withContent_ends d _

/-! ## Named items -/

theorem parseNamedWith_ends {parse : Mode → M Stream α} {inline : Mode → M (List Stream) α} {flag : Span → Res α}
    (h : ∀ m, EndsAlike (parse m)) (sp : Span) : EndsAlike (parseNamedWith parse inline flag sp) := by
  refine .of_cases (fun sc u => ?_) fun t v sc u hv => ?_
  · have : ∀ rest, Boundary rest → parseNamedWith parse inline flag sp ⟨rest, sc, u⟩ = (flag sp, ⟨rest, sc, u⟩) := by
      intro rest hb
      rcases hb with rfl | ⟨c, r, rfl, hc⟩
      · rfl
      · rw [(named_cases sp).2 _ _ _ _ hc.isPunct_eq, hc.peekDelim]; rfl
    cases hf : flag sp with
    | ok x => exact .inl ⟨x, u, fun rest hb => by rw [this rest hb, hf]⟩
    | err e => exact .inr fun rest hb x s' h => by rw [this rest hb, hf] at h; cases h
    | panic => exact .inr fun rest hb x s' h => by rw [this rest hb, hf] at h; cases h
  · cases ht : t.isPunct '=' with
    | true =>
      have e : ∀ rest, parseNamedWith parse inline flag sp ⟨t :: (v ++ rest), sc, u⟩ = parse (.named sp) ⟨v ++ rest, sc, u⟩ :=
        fun rest => (named_cases sp).1 _ _ _ _ ht
      rcases h (.named sp) v sc u (fun x hx => hv x (.tail _ hx)) with ⟨x, w, u', h1, h2⟩ | h2
      · exact .inl ⟨x, w, u', h1.trans (List.suffix_cons _ _), fun rest hb => by rw [e, h2 rest hb]⟩
      · exact .inr fun rest hb x s' h => h2 rest hb x s' (by rw [← e]; exact h)
    | false =>
      cases hp : Stream.peekDelim .paren ⟨[t], sc, u⟩ with
      | true =>
        have e : ∀ rest, parseNamedWith parse inline flag sp ⟨t :: (v ++ rest), sc, u⟩ =
            parseDelimitedWith .paren (single (inline (.named sp))) ⟨t :: v ++ rest, sc, u⟩ := by
          intro rest
          rw [(named_cases sp).2 _ _ _ _ ht]
          have : Stream.peekDelim .paren ⟨t :: (v ++ rest), sc, u⟩ = true := by rw [← hp]; cases t <;> rfl
          rw [this]; rfl
        rcases parseDelimitedWith_ends .paren (single (inline (.named sp))) (t :: v) sc u hv with ⟨x, w, u', h1, h2⟩ | h2
        · exact .inl ⟨x, w, u', h1, fun rest hb => by rw [e, h2 rest hb]⟩
        · exact .inr fun rest hb x s' h => h2 rest hb x s' (by rw [← e]; exact h)
      | false =>
        have e : ∀ rest, parseNamedWith parse inline flag sp ⟨t :: (v ++ rest), sc, u⟩ =
            (flag sp, ⟨t :: v ++ rest, sc, u⟩) := by
          intro rest
          rw [(named_cases sp).2 _ _ _ _ ht]
          have : Stream.peekDelim .paren ⟨t :: (v ++ rest), sc, u⟩ = false := by rw [← hp]; cases t <;> rfl
          rw [this]; rfl
        cases hf : flag sp with
        | ok x => exact .inl ⟨x, t :: v, u, List.suffix_refl _, fun rest hb => by rw [e, hf]⟩
        | err e' => exact .inr fun rest hb x s' h => by rw [e, hf] at h; cases h
        | panic => exact .inr fun rest hb x s' h => by rw [e, hf] at h; cases h

theorem Dict.mk'_ends {parse : Mode → M Stream α} {inline : Mode → M (List Stream) α}
    {flag : Span → Res α} {missing : Str → Span → Res α} (h : ∀ m, Deluxe.EndsAlike (parse m)) :
    (Dict.mk' parse inline flag missing).EndsAlike :=
  ⟨h, fun _ sp => by
    show Deluxe.EndsAlike (parseNamedMetaItem parse inline flag sp)
    rw [parseNamedMetaItem_eq_with]
    exact parseNamedWith_ends h sp⟩

theorem withModule_ends {parse : Mode → M Stream α} {inline : Mode → M (List Stream) α}
    {flag : Span → Res α} {missing : Str → Span → Res α} (h : ∀ m, EndsAlike (parse m)) :
    (withModule parse inline flag missing).EndsAlike :=
  ⟨h, fun _ sp => parseNamedWith_ends h sp⟩

/-! ## Literals and single tokens -/

theorem parseLitToks_ends (v : List Tok) (hv : NoComma v) :
    (∃ l v', v' <:+ v ∧ ∀ rest, Boundary rest → parseLitToks (v ++ rest) = some (l, v' ++ rest)) ∨
      ∀ rest, Boundary rest → parseLitToks (v ++ rest) = none := by
  match v with
  | [] =>
    refine .inr fun rest hb => ?_
    rcases hb with rfl | ⟨c, r, rfl, j, sp, rfl⟩ <;> rfl
  | .lit l _ :: v => exact .inl ⟨.lit l, v, List.suffix_cons _ _, fun rest _ => rfl⟩
  | .ident s _ :: v =>
    simp only [List.cons_append, parseLitToks]
    by_cases h1 : s = "true".toList
    · exact .inl ⟨.bool true, v, List.suffix_cons _ _, fun rest _ => by rw [if_pos h1]⟩
    · by_cases h2 : s = "false".toList
      · exact .inl ⟨.bool false, v, List.suffix_cons _ _, fun rest _ => by rw [if_neg h1, if_pos h2]⟩
      · exact .inr fun rest _ => by rw [if_neg h1, if_neg h2]
  | .group _ _ _ _ :: v => exact .inr fun rest _ => rfl
  | [.punct ch _ _] =>
    refine .inr fun rest hb => ?_
    rcases hb with rfl | ⟨c, r, rfl, j, sp, rfl⟩ <;> simp [parseLitToks]
  | .punct ch _ _ :: t :: v =>
    by_cases h : ch = '-'
    · subst h
      have hs : ∀ t' : Tok, v <:+ t' :: t :: v := fun t' => ⟨[t', t], rfl⟩
      cases t with
      | lit l sp =>
        cases l with
        | int n => exact .inl ⟨_, v, hs _, fun rest _ => rfl⟩
        | float n => exact .inl ⟨_, v, hs _, fun rest _ => rfl⟩
        | _ => exact .inr fun rest _ => rfl
      | _ => exact .inr fun rest _ => rfl
    · exact .inr fun rest _ => by
        simp only [List.cons_append]
        unfold parseLitToks
        split <;> simp_all

theorem expectLit_ends (what : Str) (f : LitVal → Option α) : EndsAlike (expectLit what f) := by
  intro v sc u hv
  rcases parseLitToks_ends v hv with ⟨l, v', h1, h2⟩ | h2
  · cases hf : f l with
    | some a => exact .inl ⟨a, v', u, h1, fun rest hb => by simp only [expectLit, h2 rest hb, hf]⟩
    | none =>
      refine .inr fun rest hb x s' h => ?_
      simp only [expectLit, h2 rest hb, hf] at h
      cases h
  · refine .inr fun rest hb x s' h => ?_
    simp only [expectLit, h2 rest hb] at h
    cases h

/-- Parsers that look at one token only. -/
theorem EndsAlike.of_one {p : M Stream α} (f : Tok → Res α × Bool) (hc : ∀ c, Comma c → ∀ x, (f c).1 ≠ .ok x)
    (h0 : ∀ sc u x s', p ⟨[], sc, u⟩ ≠ (.ok x, s'))
    (h : ∀ t rest sc u, p ⟨t :: rest, sc, u⟩ = ((f t).1, ⟨if (f t).2 then rest else t :: rest, sc, u⟩)) : EndsAlike p := by
  refine .of_cases (fun sc u => .inr fun rest hb x s' => ?_) fun t v sc u hv => ?_
  · rcases hb with rfl | ⟨c, r, rfl, hcc⟩
    · exact h0 sc u x s'
    · rw [h]
      intro hx
      exact hc c hcc x (congrArg Prod.fst hx)
  · cases hf : (f t).1 with
    | ok x =>
      refine .inl ⟨x, if (f t).2 then v else t :: v, u, ?_, fun rest _ => ?_⟩
      · split
        · exact List.suffix_cons _ _
        · exact List.suffix_refl _
      · rw [h, hf]
        cases (f t).2 <;> rfl
    | err e => exact .inr fun rest _ x s' => by rw [h, hf]; exact fun h => by cases h
    | panic => exact .inr fun rest _ x s' => by rw [h, hf]; exact fun h => by cases h

/-! ## Paths -/

theorem leadColon_ends (v : List Tok) :
    ∃ sps v', v' <:+ v ∧ ∀ rest, Boundary rest → leadColon (v ++ rest) = (sps, v' ++ rest) := by
  by_cases h : ∃ sp1 j2 sp2 w, v = .punct ':' true sp1 :: .punct ':' j2 sp2 :: w
  · obtain ⟨sp1, j2, sp2, w, rfl⟩ := h
    exact ⟨[sp1, sp2], w, ⟨[_, _], rfl⟩, fun rest _ => rfl⟩
  · refine ⟨[], v, List.suffix_refl _, fun rest hb => ?_⟩
    unfold leadColon
    split
    · rename_i sp1 j2 sp2 w heq
      exfalso
      rcases hb with rfl | ⟨c, r, rfl, j, sp, rfl⟩
      · rw [List.append_nil] at heq
        exact h ⟨_, _, _, _, heq⟩
      · match v with
        | [] => simp at heq
        | [t] => simp at heq
        | t :: t2 :: w' =>
          simp only [List.cons_append, List.cons.injEq] at heq
          exact h ⟨sp1, j2, sp2, w', by rw [heq.1, heq.2.1]⟩
    · rfl

theorem pathLoop_ends : (v : List Tok) →
    ∃ segs tr v', v' <:+ v ∧ ∀ rest, Boundary rest → pathLoop (v ++ rest) = (segs, tr, v' ++ rest)
  | [] => by
    refine ⟨[], false, [], List.suffix_refl _, fun rest hb => ?_⟩
    rcases hb with rfl | ⟨c, r, rfl, j, sp, rfl⟩ <;> simp [pathLoop]
  | .ident s sp :: v => by
    by_cases h : ∃ sp1 j2 sp2 w, v = .punct ':' true sp1 :: .punct ':' j2 sp2 :: w
    · obtain ⟨sp1, j2, sp2, w, rfl⟩ := h
      obtain ⟨segs, tr, v', h1, h2⟩ := pathLoop_ends w
      exact ⟨(s, sp) :: segs, (if segs.isEmpty then true else tr), v', h1.trans ⟨[_, _, _], rfl⟩, fun rest hb => by
        simp only [List.cons_append, pathLoop, h2 rest hb]⟩
    · refine ⟨[(s, sp)], false, v, List.suffix_cons _ _, fun rest hb => ?_⟩
      simp only [List.cons_append]
      unfold pathLoop
      split
      · rename_i a b sp1 j2 sp2 w heq
        exfalso
        rcases hb with rfl | ⟨c, r, rfl, j, spc, rfl⟩
        · simp only [List.append_nil, List.cons.injEq] at heq
          exact h ⟨_, _, _, _, heq.2⟩
        · match v with
          | [] => simp at heq
          | [t] => simp at heq
          | t :: t2 :: w' =>
            simp only [List.cons_append, List.cons.injEq] at heq
            exact h ⟨_, _, _, w', by rw [heq.2.1, heq.2.2.1]⟩
      · simp_all
      · simp_all
  | .punct a b d :: v => ⟨[], false, .punct a b d :: v, List.suffix_refl _, fun rest _ => by
      simp only [List.cons_append]; unfold pathLoop; rfl⟩
  | .lit a b :: v => ⟨[], false, .lit a b :: v, List.suffix_refl _, fun rest _ => by
      simp only [List.cons_append]; unfold pathLoop; rfl⟩
  | .group a b d e :: v => ⟨[], false, .group a b d e :: v, List.suffix_refl _, fun rest _ => by
      simp only [List.cons_append]; unfold pathLoop; rfl⟩
termination_by v => v.length

theorem parseAnyPath_ends [Env] : EndsAlike parseAnyPath := by
  intro v sc u hv
  obtain ⟨sps, v1, g1, g2⟩ := leadColon_ends v
  obtain ⟨segs, tr, v2, h1, h2⟩ := pathLoop_ends v1
  cases hsegs : segs.isEmpty with
  | true =>
    refine .inr fun rest hb x s' h => ?_
    simp only [parseAnyPath, g2 rest hb, h2 rest hb, hsegs, ↓reduceIte] at h
    cases h
  | false =>
    cases tr with
    | true =>
      refine .inr fun rest hb x s' h => ?_
      simp only [parseAnyPath, g2 rest hb, h2 rest hb, hsegs, ↓reduceIte, Bool.false_eq_true] at h
      cases h
    | false =>
      exact .inl ⟨⟨!sps.isEmpty, segs.map (·.1), joinSpans ((sps ++ segs.map (·.2)).headD callSite)
          (sps ++ segs.map (·.2)).tail⟩, v2, u, h1.trans g1, fun rest hb => by
        simp only [parseAnyPath, g2 rest hb, h2 rest hb, hsegs, ↓reduceIte, Bool.false_eq_true]⟩

end Deluxe
