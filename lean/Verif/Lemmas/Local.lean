import Verif.Props.Progress
import Verif.Model.With
import Verif.Model.Enum
/-!
# Item parsers and what follows the next comma

`Local p`: on an item, that is tokens without a comma at top level followed by a comma, the outcome of `p`,
what it leaves of the item and what it records as unexpected are the same whatever follows the comma, and the
comma is not read.
-/
namespace Deluxe

/-- The parser does not look past the comma after the item. -/
def Local {α : Type} (p : M Stream α) : Prop :=
  ∀ v c sc u, NoComma v → Comma c →
    ∃ r v' u', v' <:+ v ∧ ∀ rest, p ⟨v ++ c :: rest, sc, u⟩ = (r, ⟨v' ++ c :: rest, sc, u'⟩)

/-- The same for a parser that may also read the comma itself. -/
def LocalUpTo {α : Type} (p : M Stream α) : Prop :=
  ∀ v c sc u, NoComma v → Comma c →
    ∃ r w u', w <:+ v ++ [c] ∧ ∀ rest, p ⟨v ++ c :: rest, sc, u⟩ = (r, ⟨w ++ rest, sc, u'⟩)

theorem Local.upTo {α : Type} {p : M Stream α} (h : Local p) : LocalUpTo p := by
  intro v c sc u hv hc
  obtain ⟨r, v', u', ⟨pre, h1⟩, h2⟩ := h v c sc u hv hc
  exact ⟨r, v' ++ [c], u', ⟨pre, by rw [← List.append_assoc, h1]⟩, fun rest => by rw [h2]; simp⟩

theorem NoComma.suffix {v v' : List Tok} (hv : NoComma v) (h : v' <:+ v) : NoComma v' :=
  fun t ht => hv t (h.subset ht)

/-- Parsers that only look at the first token. -/
theorem Local.of_cases {α : Type} {p : M Stream α}
    (hnil : ∀ c sc u, Comma c → ∃ r u', ∀ rest, p ⟨c :: rest, sc, u⟩ = (r, ⟨c :: rest, sc, u'⟩))
    (hcons : ∀ t v c sc u, NoComma (t :: v) → Comma c → ∃ r v' u', v' <:+ t :: v ∧
      ∀ rest, p ⟨t :: (v ++ c :: rest), sc, u⟩ = (r, ⟨v' ++ c :: rest, sc, u'⟩)) : Local p := by
  intro v c sc u hv hc
  cases v with
  | nil =>
    obtain ⟨r, u', h⟩ := hnil c sc u hc
    exact ⟨r, [], u', List.suffix_refl _, h⟩
  | cons t v => exact hcons t v c sc u hv hc

theorem Local.lift {α : Type} (r : Res α) : Local (fun s => (r, s)) :=
  fun v _ _ u _ _ => ⟨r, v, u, List.suffix_refl _, fun _ => rfl⟩

theorem Local.bind {α β : Type} {m : M Stream α} {f : α → M Stream β} (hm : Local m)
    (hf : ∀ a, Local (f a)) : Local (m >>= f) := by
  intro v c sc u hv hc
  obtain ⟨r, v', u', h1, h2⟩ := hm v c sc u hv hc
  cases r with
  | ok a =>
    obtain ⟨r2, v2, u2, g1, g2⟩ := hf a v' c sc u' (hv.suffix h1) hc
    exact ⟨r2, v2, u2, g1.trans h1, fun rest => by simp only [Bind.bind, M.bind, h2, g2]⟩
  | err e => exact ⟨.err e, v', u', h1, fun rest => by simp only [Bind.bind, M.bind, h2]⟩
  | panic => exact ⟨.panic, v', u', h1, fun rest => by simp only [Bind.bind, M.bind, h2]⟩

theorem Local.bind_upTo {α β : Type} {m : M Stream α} {f : α → M Stream β} (hm : Local m)
    (hf : ∀ a, LocalUpTo (f a)) : LocalUpTo (m >>= f) := by
  intro v c sc u hv hc
  obtain ⟨r, v', u', h1, h2⟩ := hm v c sc u hv hc
  have hs : v' ++ [c] <:+ v ++ [c] := by
    obtain ⟨pre, h⟩ := h1
    exact ⟨pre, by rw [← List.append_assoc, h]⟩
  cases r with
  | ok a =>
    obtain ⟨r2, v2, u2, g1, g2⟩ := hf a v' c sc u' (hv.suffix h1) hc
    exact ⟨r2, v2, u2, g1.trans hs, fun rest => by simp only [Bind.bind, M.bind, h2, g2]⟩
  | err e => exact ⟨.err e, v' ++ [c], u', hs, fun rest => by simp [Bind.bind, M.bind, h2]⟩
  | panic => exact ⟨.panic, v' ++ [c], u', hs, fun rest => by simp [Bind.bind, M.bind, h2]⟩

theorem Local.mapRes {α β : Type} {m : M Stream α} (g : Res α → Res β) (hm : Local m) :
    Local (m.mapRes g) := by
  intro v c sc u hv hc
  obtain ⟨r, v', u', h1, h2⟩ := hm v c sc u hv hc
  exact ⟨g r, v', u', h1, fun rest => by simp only [M.mapRes, h2]⟩

theorem Local.map {α β : Type} {m : M Stream α} (g : α → β) (hm : Local m) : Local (m.map g) :=
  hm.mapRes (Res.map g)

theorem LocalUpTo.mapRes {α β : Type} {m : M Stream α} (g : Res α → Res β) (hm : LocalUpTo m) :
    LocalUpTo (m.mapRes g) := by
  intro v c sc u hv hc
  obtain ⟨r, v', u', h1, h2⟩ := hm v c sc u hv hc
  exact ⟨g r, v', u', h1, fun rest => by simp only [M.mapRes, h2]⟩

/-- Another parser that does the same on items. -/
theorem Local.congr {α : Type} {p q : M Stream α} (h : Local q)
    (he : ∀ v c rest sc u, p ⟨v ++ c :: rest, sc, u⟩ = q ⟨v ++ c :: rest, sc, u⟩) : Local p := by
  intro v c sc u hv hc
  obtain ⟨r, v', u', h1, h2⟩ := h v c sc u hv hc
  exact ⟨r, v', u', h1, fun rest => by rw [he]; exact h2 rest⟩

/-! ## Groups -/

/-- Whatever the content function, reading a group looks only at the group. -/
theorem withContent_local {α : Type} (d : Delim) (f : M Stream α) : Local (withContent d f) := by
  refine .of_cases (fun c sc u hc => ?_) fun t v c sc u hv hc => ?_
  · obtain ⟨j, sp, rfl⟩ := hc
    exact ⟨.err (.new sp (.expectedDelim d)), u, fun rest => rfl⟩
  · cases t with
    | group d' inner sp close =>
      by_cases hd : d' = d
      · subst hd
        exact ⟨(f ⟨inner, close, u⟩).1, v, (Stream.dropChild ⟨[], sc, u⟩ (f ⟨inner, close, u⟩).2).unexp,
          List.suffix_cons _ _, fun rest => by
            simp only [withContent, enter, ↓reduceIte, Stream.dropChild]⟩
      · exact ⟨.err (.new sp (.expectedDelim d)), .group d' inner sp close :: v, u, List.suffix_refl _,
          fun rest => by simp [withContent, enter, hd]⟩
    | ident x sp => exact ⟨.err (.new sp (.expectedDelim d)), _ :: v, u, List.suffix_refl _, fun rest => rfl⟩
    | lit x sp => exact ⟨.err (.new sp (.expectedDelim d)), _ :: v, u, List.suffix_refl _, fun rest => rfl⟩
    | punct x j sp => exact ⟨.err (.new sp (.expectedDelim d)), _ :: v, u, List.suffix_refl _, fun rest => rfl⟩

theorem parseDelimitedWith_local {α : Type} (d : Delim) (f : M Stream α) : Local (parseDelimitedWith d f) :=
  withContent_local d _

theorem parseDelimitedMetaItem_local {α : Type} (d : Delim) (inline : Mode → M (List Stream) α) (m : Mode) :
    Local (parseDelimitedMetaItem d inline m) := withContent_local d _

/-! ## Named items -/

/-- The part of `parse_named_meta_item` before the value. -/
theorem named_cases {α : Type} {parse : Mode → M Stream α} {inline : Mode → M (List Stream) α}
    {flag : Span → Res α} (sp : Span) :
    (∀ t v sc u, t.isPunct '=' = true →
      parseNamedWith parse inline flag sp ⟨t :: v, sc, u⟩ = parse (.named sp) ⟨v, sc, u⟩) ∧
    (∀ t v sc u, t.isPunct '=' = false →
      parseNamedWith parse inline flag sp ⟨t :: v, sc, u⟩ =
        if Stream.peekDelim .paren ⟨t :: v, sc, u⟩ then
          parseDelimitedWith .paren (single (inline (.named sp))) ⟨t :: v, sc, u⟩
        else (flag sp, ⟨t :: v, sc, u⟩)) := by
  refine ⟨fun t v sc u h => ?_, fun t v sc u h => ?_⟩
  · simp [parseNamedWith, Stream.peekPunct, h]
  · simp [parseNamedWith, Stream.peekPunct, h]

/-- The macro and the function do the same. -/
theorem parseNamedMetaItem_eq_with {α : Type} (parse : Mode → M Stream α) (inline : Mode → M (List Stream) α)
    (flag : Span → Res α) (sp : Span) :
    parseNamedMetaItem parse inline flag sp = parseNamedWith parse inline flag sp := by
  funext s
  unfold parseNamedMetaItem parseNamedWith
  split
  · rename_i h
    cases s with
    | mk toks sc u =>
      cases toks with
      | nil => simp [Stream.peekPunct] at h
      | cons t rest =>
        simp only [Stream.peekPunct] at h
        simp [Bind.bind, M.bind, parsePunct, h]
  · rfl

theorem Comma.isPunct_eq {c : Tok} (hc : Comma c) : c.isPunct '=' = false := by
  obtain ⟨j, sp, rfl⟩ := hc
  rfl

theorem Comma.peekDelim {c : Tok} (hc : Comma c) (d : Delim) (rest : List Tok) (sc : Span) (u : Option Span) :
    Stream.peekDelim d ⟨c :: rest, sc, u⟩ = false := by
  obtain ⟨j, sp, rfl⟩ := hc
  rfl

theorem parseNamedWith_local {α : Type} {parse : Mode → M Stream α} {inline : Mode → M (List Stream) α}
    {flag : Span → Res α} (h : ∀ m, Local (parse m)) (sp : Span) :
    Local (parseNamedWith parse inline flag sp) := by
  refine .of_cases (fun c sc u hc => ?_) fun t v c sc u hv hc => ?_
  · exact ⟨flag sp, u, fun rest => by rw [(named_cases sp).2 _ _ _ _ hc.isPunct_eq, hc.peekDelim]; rfl⟩
  · cases ht : t.isPunct '=' with
    | true =>
      obtain ⟨r, v', u', h1, h2⟩ := h (.named sp) v c sc u (fun x hx => hv x (.tail _ hx)) hc
      exact ⟨r, v', u', h1.trans (List.suffix_cons _ _), fun rest => by
        rw [(named_cases sp).1 _ _ _ _ ht, h2]⟩
    | false =>
      cases hp : Stream.peekDelim .paren ⟨[t], sc, u⟩ with
      | true =>
        obtain ⟨r, v', u', h1, h2⟩ :=
          parseDelimitedWith_local .paren (single (inline (.named sp))) (t :: v) c sc u hv hc
        refine ⟨r, v', u', h1, fun rest => ?_⟩
        rw [(named_cases sp).2 _ _ _ _ ht]
        have : Stream.peekDelim .paren ⟨t :: (v ++ c :: rest), sc, u⟩ = true := by rw [← hp]; cases t <;> rfl
        rw [this]
        exact h2 rest
      | false =>
        refine ⟨flag sp, t :: v, u, List.suffix_refl _, fun rest => ?_⟩
        rw [(named_cases sp).2 _ _ _ _ ht]
        have : Stream.peekDelim .paren ⟨t :: (v ++ c :: rest), sc, u⟩ = false := by rw [← hp]; cases t <;> rfl
        rw [this]
        rfl

theorem parseNamedWith_localUpTo {α : Type} {parse : Mode → M Stream α} {inline : Mode → M (List Stream) α}
    {flag : Span → Res α} (h : ∀ m, LocalUpTo (parse m)) (sp : Span) :
    LocalUpTo (parseNamedWith parse inline flag sp) := by
  intro v c sc u hv hc
  by_cases he : ∃ t v', v = t :: v' ∧ t.isPunct '=' = true
  · obtain ⟨t, v', rfl, ht⟩ := he
    obtain ⟨r, w, u', h1, h2⟩ := h (.named sp) v' c sc u (fun x hx => hv x (.tail _ hx)) hc
    exact ⟨r, w, u', h1.trans (List.suffix_cons _ _), fun rest => by
      rw [List.cons_append, (named_cases sp).1 _ _ _ _ ht, h2]⟩
  · -- without `=` the value parser is not called
    have hloc : Local (parseNamedWith (fun _ => (M.panic : M Stream α)) inline flag sp) :=
      parseNamedWith_local (fun _ => Local.lift .panic) sp
    obtain ⟨r, w, u', h1, h2⟩ := hloc.upTo v c sc u hv hc
    refine ⟨r, w, u', h1, fun rest => ?_⟩
    rw [← h2 rest]
    cases v with
    | nil => rw [List.nil_append, (named_cases sp).2 _ _ _ _ hc.isPunct_eq, (named_cases sp).2 _ _ _ _ hc.isPunct_eq]
    | cons t v =>
      have ht : t.isPunct '=' = false := by
        cases h : t.isPunct '=' with
        | false => rfl
        | true => exact absurd ⟨t, v, rfl, h⟩ he
      rw [List.cons_append, (named_cases sp).2 _ _ _ _ ht, (named_cases sp).2 _ _ _ _ ht]

/-- Both ways of reading a value of a type: in a position, and after a key. -/
structure Dict.Local {α : Type} (d : Dict α) : Prop where
  parse : ∀ m, Deluxe.Local (d.parse m)
  named : ∀ n sp, Deluxe.Local (d.named n sp)

/-- The same, where the comma may be read. -/
structure Dict.LocalUpTo {α : Type} (d : Dict α) : Prop where
  parse : ∀ m, Deluxe.LocalUpTo (d.parse m)
  named : ∀ n sp, Deluxe.LocalUpTo (d.named n sp)

theorem Dict.mk'_local {α : Type} {parse : Mode → M Stream α} {inline : Mode → M (List Stream) α}
    {flag : Span → Res α} {missing : Str → Span → Res α} (h : ∀ m, Deluxe.Local (parse m)) :
    (Dict.mk' parse inline flag missing).Local :=
  ⟨h, fun _ sp => by
    show Deluxe.Local (parseNamedMetaItem parse inline flag sp)
    rw [parseNamedMetaItem_eq_with]
    exact parseNamedWith_local h sp⟩

theorem Dict.mk'_localUpTo {α : Type} {parse : Mode → M Stream α} {inline : Mode → M (List Stream) α}
    {flag : Span → Res α} {missing : Str → Span → Res α} (h : ∀ m, Deluxe.LocalUpTo (parse m)) :
    (Dict.mk' parse inline flag missing).LocalUpTo :=
  ⟨h, fun _ sp => by
    show Deluxe.LocalUpTo (parseNamedMetaItem parse inline flag sp)
    rw [parseNamedMetaItem_eq_with]
    exact parseNamedWith_localUpTo h sp⟩

theorem withModule_local {α : Type} {parse : Mode → M Stream α} {inline : Mode → M (List Stream) α}
    {flag : Span → Res α} {missing : Str → Span → Res α} (h : ∀ m, Local (parse m)) :
    (withModule parse inline flag missing).Local :=
  ⟨h, fun _ sp => parseNamedWith_local h sp⟩

/-! ## Literals, identifiers and other tokens -/

theorem parseLitToks_local (v : List Tok) (c : Tok) (hv : NoComma v) (hc : Comma c) :
    (∃ l v', v' <:+ v ∧ ∀ rest, parseLitToks (v ++ c :: rest) = some (l, v' ++ c :: rest)) ∨
      ∀ rest, parseLitToks (v ++ c :: rest) = none := by
  obtain ⟨j, sp, rfl⟩ := hc
  match v with
  | [] => exact .inr fun rest => rfl
  | .lit l _ :: v => exact .inl ⟨.lit l, v, List.suffix_cons _ _, fun rest => rfl⟩
  | .ident s _ :: v =>
    simp only [List.cons_append, parseLitToks]
    by_cases h1 : s = "true".toList
    · exact .inl ⟨.bool true, v, List.suffix_cons _ _, fun rest => by rw [if_pos h1]⟩
    · by_cases h2 : s = "false".toList
      · exact .inl ⟨.bool false, v, List.suffix_cons _ _, fun rest => by rw [if_neg h1, if_pos h2]⟩
      · exact .inr fun rest => by rw [if_neg h1, if_neg h2]
  | .group _ _ _ _ :: v => exact .inr fun rest => rfl
  | [.punct ch _ _] => exact .inr fun rest => by simp [parseLitToks]
  | .punct ch _ _ :: t :: v =>
    by_cases h : ch = '-'
    · subst h
      have hs : ∀ t' : Tok, v <:+ t' :: t :: v := fun t' => ⟨[t', t], rfl⟩
      cases t with
      | lit l sp =>
        cases l with
        | int n => exact .inl ⟨_, v, hs _, fun rest => rfl⟩
        | float n => exact .inl ⟨_, v, hs _, fun rest => rfl⟩
        | _ => exact .inr fun rest => rfl
      | _ => exact .inr fun rest => rfl
    · exact .inr fun rest => by
        simp only [List.cons_append]
        unfold parseLitToks
        split <;> simp_all

theorem Stream.error_local (v : List Tok) (c : Tok) (rest rest' : List Tok) (sc : Span) (u : Option Span)
    (x : Text) : Stream.error ⟨v ++ c :: rest, sc, u⟩ x = Stream.error ⟨v ++ c :: rest', sc, u⟩ x := by
  cases v <;> rfl

theorem Stream.span_local (v : List Tok) (c : Tok) (rest rest' : List Tok) (sc : Span) (u u' : Option Span) :
    Stream.span ⟨v ++ c :: rest, sc, u⟩ = Stream.span ⟨v ++ c :: rest', sc, u'⟩ := by
  cases v <;> rfl

theorem expectLit_local {α : Type} (what : Str) (f : LitVal → Option α) : Local (expectLit what f) := by
  intro v c sc u hv hc
  rcases parseLitToks_local v c hv hc with ⟨l, v', h1, h2⟩ | h2
  · cases hf : f l with
    | some a => exact ⟨.ok a, v', u, h1, fun rest => by simp only [expectLit, h2, hf]⟩
    | none =>
      exact ⟨.err (Stream.error ⟨v ++ c :: [], sc, u⟩ (.expected what)), v', u, h1, fun rest => by
        simp only [expectLit, h2, hf]
        rw [Stream.error_local v c rest []]⟩
  · exact ⟨.err (Stream.error ⟨v ++ c :: [], sc, u⟩ (.expected what)), v, u, List.suffix_refl _,
      fun rest => by
        simp only [expectLit, h2]
        rw [Stream.error_local v c rest []]⟩

/-- A parser followed by a conversion whose failure is located at the start of the item. -/
theorem Local.convert {α β : Type} {p : M Stream α} (h : Local p) (conv : Span → α → Res β) :
    Local (fun s => match p s with
      | (.ok a, s') => (conv s.span a, s')
      | (.err e, s') => (.err e, s')
      | (.panic, s') => (.panic, s')) := by
  intro v c sc u hv hc
  obtain ⟨r, v', u', h1, h2⟩ := h v c sc u hv hc
  cases r with
  | ok a =>
    refine ⟨conv (Stream.span ⟨v ++ c :: [], sc, u⟩) a, v', u', h1, fun rest => ?_⟩
    simp only [h2]
    rw [Stream.span_local v c rest []]
  | err e => exact ⟨.err e, v', u', h1, fun rest => by simp only [h2]⟩
  | panic => exact ⟨.panic, v', u', h1, fun rest => by simp only [h2]⟩

/-! ## Paths -/

theorem leadColon_local (v : List Tok) (c : Tok) (hc : Comma c) :
    ∃ sps v', v' <:+ v ∧ ∀ rest, leadColon (v ++ c :: rest) = (sps, v' ++ c :: rest) := by
  obtain ⟨j, sp, rfl⟩ := hc
  by_cases h : ∃ sp1 j2 sp2 w, v = .punct ':' true sp1 :: .punct ':' j2 sp2 :: w
  · obtain ⟨sp1, j2, sp2, w, rfl⟩ := h
    exact ⟨[sp1, sp2], w, ⟨[_, _], rfl⟩, fun rest => rfl⟩
  · refine ⟨[], v, List.suffix_refl _, fun rest => ?_⟩
    unfold leadColon
    split
    · rename_i sp1 j2 sp2 w heq
      exfalso
      match v with
      | [] => simp at heq
      | [t] => simp at heq
      | t :: t2 :: w' =>
        simp only [List.cons_append, List.cons.injEq] at heq
        exact h ⟨sp1, j2, sp2, w', by rw [heq.1, heq.2.1]⟩
    · rfl

theorem pathLoop_local (c : Tok) (hc : Comma c) : (v : List Tok) →
    ∃ segs tr v', v' <:+ v ∧ ∀ rest, pathLoop (v ++ c :: rest) = (segs, tr, v' ++ c :: rest)
  | [] => by
    obtain ⟨j, sp, rfl⟩ := hc
    exact ⟨[], false, [], List.suffix_refl _, fun rest => by simp [pathLoop]⟩
  | .ident s sp :: .punct c1 j1 sp1 :: .punct c2 j2 sp2 :: v => by
    by_cases h : c1 = ':' ∧ j1 = true ∧ c2 = ':'
    · obtain ⟨rfl, rfl, rfl⟩ := h
      obtain ⟨segs, tr, v', h1, h2⟩ := pathLoop_local c hc v
      exact ⟨(s, sp) :: segs, (if segs.isEmpty then true else tr), v', h1.trans ⟨[_, _, _], rfl⟩, fun rest => by
        simp only [List.cons_append, pathLoop, h2]⟩
    · refine ⟨[(s, sp)], false, .punct c1 j1 sp1 :: .punct c2 j2 sp2 :: v, List.suffix_cons _ _, fun rest => ?_⟩
      simp only [List.cons_append]
      unfold pathLoop
      split <;> simp_all
  | .ident s sp :: v => by
    by_cases h : ∃ sp1 j2 sp2 w, v = .punct ':' true sp1 :: .punct ':' j2 sp2 :: w
    · obtain ⟨sp1, j2, sp2, w, rfl⟩ := h
      obtain ⟨segs, tr, v', h1, h2⟩ := pathLoop_local c hc w
      exact ⟨(s, sp) :: segs, (if segs.isEmpty then true else tr), v', h1.trans ⟨[_, _, _], rfl⟩, fun rest => by
        simp only [List.cons_append, pathLoop, h2]⟩
    · refine ⟨[(s, sp)], false, v, List.suffix_cons _ _, fun rest => ?_⟩
      obtain ⟨j, spc, rfl⟩ := hc
      simp only [List.cons_append]
      unfold pathLoop
      split
      · rename_i a b sp1 j2 sp2 w heq
        exfalso
        match v with
        | [] => simp at heq
        | [t] => simp at heq
        | t :: t2 :: w' =>
          simp only [List.cons_append, List.cons.injEq] at heq
          exact h ⟨_, _, _, w', by rw [heq.2.1, heq.2.2.1]⟩
      · simp_all
      · simp_all
  | .punct a b d :: v => ⟨[], false, .punct a b d :: v, List.suffix_refl _, fun rest => by
      simp only [List.cons_append]; unfold pathLoop; rfl⟩
  | .lit a b :: v => ⟨[], false, .lit a b :: v, List.suffix_refl _, fun rest => by
      simp only [List.cons_append]; unfold pathLoop; rfl⟩
  | .group a b d e :: v => ⟨[], false, .group a b d e :: v, List.suffix_refl _, fun rest => by
      simp only [List.cons_append]; unfold pathLoop; rfl⟩
termination_by v => v.length

theorem parseAnyPath_local [Env] : Local parseAnyPath := by
  intro v c sc u hv hc
  obtain ⟨sps, v1, g1, g2⟩ := leadColon_local v c hc
  obtain ⟨segs, tr, v2, h1, h2⟩ := pathLoop_local c hc v1
  refine ⟨(parseAnyPath ⟨v ++ c :: [], sc, u⟩).1, v2, u, h1.trans g1, fun rest => ?_⟩
  simp only [parseAnyPath, g2, h2]
  cases hsegs : segs.isEmpty with
  | true =>
    simp only [↓reduceIte]
    rw [Stream.error_local v2 c rest []]
  | false =>
    cases tr with
    | true =>
      simp only [↓reduceIte, Bool.false_eq_true]
      rw [Stream.error_local v2 c rest []]
    | false => simp

end Deluxe
