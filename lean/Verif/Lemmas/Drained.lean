import Verif.Lemmas.PickDict
/-!
# Parsers that read everything when they succeed

Of several flat fields all but the last read a copy of the input.  What is left of the input itself is up to the last
one, so that the order of the fields could matter for what comes after.  It does not if a flat field that succeeds has
read everything.
-/
namespace Deluxe

/-- Nothing unexpected was found so far. -/
def Fresh (l : List Stream) : Prop := ∀ s ∈ l, s.unexp = none

/-- The streams at their ends. -/
def drained (l : List Stream) : List Stream := l.map fun s => { s with toks := [] }

/-- If the parser succeeds it has read everything, and has not come across anything unexpected. -/
def Drains {α : Type} (m : M (List Stream) α) : Prop := ∀ l, Fresh l → ∀ a, (m l).1 = .ok a → (m l).2 = drained l

/-- Related values, or both fail, or both panic; and if they succeed the same state afterwards.  For the states with
the property `P`. -/
def M.RelOn {σ α β : Type} (P : σ → Prop) (R : α → β → Prop) (m : M σ α) (m' : M σ β) : Prop :=
  ∀ s, P s → Res.Rel R (m s).1 (m' s).1 ∧ ∀ a, (m s).1 = .ok a → (m s).2 = (m' s).2

/-- Dictionaries that read the same, with related values, from input in which nothing unexpected was found so far.
If they succeed they leave the same. -/
structure Dict.RelFresh {α β : Type} (R : α → β → Prop) (x : Dict α) (y : Dict β) : Prop where
  parse : ∀ m, (x.parse m).RelOn (fun s => s.unexp = none) R (y.parse m)
  inline : ∀ m, (x.inline m).RelOn Fresh R (y.inline m)
  flag : ∀ sp, Res.Rel R (x.flag sp) (y.flag sp)
  named : ∀ n sp, (x.named n sp).RelOn (fun s => s.unexp = none) R (y.named n sp)

theorem Fresh.single {s : Stream} (h : s.unexp = none) : Fresh [s] := fun _ ht => List.mem_singleton.1 ht ▸ h

theorem Fresh.append {l l' : List Stream} (h : Fresh l) (h' : Fresh l') : Fresh (l ++ l') := fun s hs =>
  (List.mem_append.1 hs).elim (h s) (h' s)

theorem enter_fresh {d : Delim} {s c s' : Stream} (h : enter d s = .ok (c, s')) (hs : s.unexp = none) :
    c.unexp = none ∧ s'.unexp = none := by
  unfold enter at h
  split at h
  · split at h
    · cases h; exact ⟨hs, hs⟩
    · cases h
  · cases h

section
variable {α β : Type} {R : α → β → Prop}

theorem M.RelOn.single {m : M (List Stream) α} {m' : M (List Stream) β} (h : m.RelOn Fresh R m') :
    (single m).RelOn (fun s => s.unexp = none) R (single m') := fun s hs =>
  ⟨(h [s] (.single hs)).1, fun a ha => by simp only [Deluxe.single, (h [s] (.single hs)).2 a ha]⟩

theorem M.RelOn.delimited {m : M Stream α} {m' : M Stream β} (h : m.RelOn (fun s => s.unexp = none) R m') (d : Delim) :
    (parseDelimitedWith d m).RelOn (fun s => s.unexp = none) R (parseDelimitedWith d m') := fun s hs => by
  simp only [parseDelimitedWith, withContent]
  cases he : enter d s with
  | error e => exact ⟨.err, fun a ha => (nomatch ha)⟩
  | ok x =>
    obtain ⟨c, s'⟩ := x
    have := h c (enter_fresh he hs).1
    simp only [Bind.bind, M.bind]
    generalize m c = a at this ⊢
    generalize m' c = b at this ⊢
    obtain ⟨a, la⟩ := a
    obtain ⟨b, lb⟩ := b
    obtain ⟨hab, hl⟩ := this
    simp only at hab hl
    cases hab with
    | err => exact ⟨.err, fun a ha => (nomatch ha)⟩
    | panic => exact ⟨.panic, fun a ha => (nomatch ha)⟩
    | ok h =>
      obtain rfl := hl _ rfl
      dsimp only
      cases parseEof la with
      | mk r l =>
        cases r with
        | ok u => exact ⟨.ok h, fun _ _ => rfl⟩
        | err e => exact ⟨.err, fun _ _ => rfl⟩
        | panic => exact ⟨.panic, fun _ _ => rfl⟩

theorem M.RelOn.parse2 {m : M Stream α} {m' : M Stream β} (h : m.RelOn (fun s => s.unexp = none) R m') (toks : List Tok) :
    Res.Rel R (parse2 m toks) (parse2 m' toks) := by
  unfold Deluxe.parse2
  have := h ⟨toks, callSite, none⟩ rfl
  generalize m ⟨toks, callSite, none⟩ = a at this ⊢
  generalize m' ⟨toks, callSite, none⟩ = b at this ⊢
  obtain ⟨a, la⟩ := a
  obtain ⟨b, lb⟩ := b
  obtain ⟨hab, hl⟩ := this
  simp only at hab hl
  cases hab with
  | err => exact .err
  | panic => exact .panic
  | ok h =>
    obtain rfl := hl _ rfl
    obtain ⟨t, sc, u⟩ := la
    cases u with
    | some sp => exact .err
    | none =>
      cases t with
      | nil => exact .ok h
      | cons t ts => exact .err

theorem M.RelOn.parseEmpty {m : M Stream α} {m' : M Stream β} (h : m.RelOn (fun s => s.unexp = none) R m') (sp : Span) :
    Res.Rel R (parseEmpty sp m) (parseEmpty sp m') := by
  unfold Deluxe.parseEmpty
  have := h.parse2 []
  generalize Deluxe.parse2 m [] = a at this ⊢
  generalize Deluxe.parse2 m' [] = b at this ⊢
  cases this with
  | err => exact .err
  | panic => exact .panic
  | ok h => exact .ok h

theorem M.RelOn.namedItem {parse : Mode → M Stream α} {parse' : Mode → M Stream β} {inline : Mode → M (List Stream) α}
    {inline' : Mode → M (List Stream) β} {flag : Span → Res α} {flag' : Span → Res β}
    (hp : ∀ m, (parse m).RelOn (fun s => s.unexp = none) R (parse' m)) (hi : ∀ m, (inline m).RelOn Fresh R (inline' m))
    (hf : ∀ sp, Res.Rel R (flag sp) (flag' sp)) (sp : Span) :
    (parseNamedMetaItem parse inline flag sp).RelOn (fun s => s.unexp = none) R (parseNamedMetaItem parse' inline' flag' sp) :=
  fun s hs => by
  unfold parseNamedMetaItem
  split
  · simp only [Bind.bind, M.bind]
    cases he : parsePunct '=' s with
    | mk r s' =>
      have hs' : s'.unexp = none := by
        unfold parsePunct at he
        split at he
        · split at he <;> cases he <;> exact hs
        · cases he; exact hs
      cases r with
      | ok u => exact hp _ _ hs'
      | err e => exact ⟨.err, fun a ha => (nomatch ha)⟩
      | panic => exact ⟨.panic, fun a ha => (nomatch ha)⟩
  · split
    · exact (hi _).single.delimited .paren s hs
    · exact ⟨hf _, fun _ _ => rfl⟩

theorem parseTokens_fails {m : M Stream α} {toks : List Tok} {e : SynErr} (h : (m ⟨toks, callSite, none⟩).1 = .err e) :
    ∃ e', parseTokens toks m = .err e' := by
  unfold Deluxe.parseTokens Deluxe.parse2
  dsimp only
  generalize m ⟨toks, callSite, none⟩ = a at h ⊢
  obtain ⟨a, la⟩ := a
  dsimp only at h
  subst h
  dsimp only
  cases parseEof la with
  | mk r l =>
    obtain ⟨t, sc, u⟩ := l
    cases r <;> cases u <;> first | exact ⟨_, rfl⟩ | (cases t <;> exact ⟨_, rfl⟩)

theorem M.RelOn.parseTokens {m : M Stream α} {m' : M Stream β} (h : m.RelOn (fun s => s.unexp = none) R m')
    (toks : List Tok) : Res.Rel R (parseTokens toks m) (parseTokens toks m') := by
  obtain ⟨hab, hl⟩ := h ⟨toks, callSite, none⟩ rfl
  cases h1 : (m ⟨toks, callSite, none⟩).1 with
  | err e =>
    obtain ⟨x, hx⟩ := parseTokens_fails h1
    rw [h1] at hab
    cases h2 : (m' ⟨toks, callSite, none⟩).1 with
    | err e' =>
      obtain ⟨y, hy⟩ := parseTokens_fails h2
      rw [hx, hy]
      exact .err
    | ok b => rw [h2] at hab; cases hab
    | panic => rw [h2] at hab; cases hab
  | panic =>
    rw [h1] at hab
    cases h2 : (m' ⟨toks, callSite, none⟩).1 with
    | panic =>
      unfold Deluxe.parseTokens Deluxe.parse2
      dsimp only
      generalize m ⟨toks, callSite, none⟩ = a at h1
      generalize m' ⟨toks, callSite, none⟩ = b at h2
      obtain ⟨a, la⟩ := a
      obtain ⟨b, lb⟩ := b
      dsimp only at h1 h2
      subst h1
      subst h2
      exact .panic
    | ok b => rw [h2] at hab; cases hab
    | err e => rw [h2] at hab; cases hab
  | ok a =>
    have hl := hl a h1
    rw [h1] at hab
    cases h2 : (m' ⟨toks, callSite, none⟩).1 with
    | err e => rw [h2] at hab; cases hab
    | panic => rw [h2] at hab; cases hab
    | ok b =>
      rw [h2] at hab
      unfold Deluxe.parseTokens Deluxe.parse2
      dsimp only
      generalize m ⟨toks, callSite, none⟩ = a at h1 hl
      generalize m' ⟨toks, callSite, none⟩ = b at h2 hl
      obtain ⟨a, la⟩ := a
      obtain ⟨b, lb⟩ := b
      dsimp only at h1 h2 hl
      subst h1
      subst h2
      subst hl
      cases hab with
      | ok h =>
        dsimp only
        cases parseEof la with
        | mk r l =>
          obtain ⟨t, sc, u⟩ := l
          cases r <;> cases u <;> first | exact .err | (cases t <;> first | exact .err | exact .ok h)

/-- What `parseNext` does with the content of one attribute. -/
def nextContent (k : List Stream → Res α × List Stream) (bufs : List Stream) (s : Stream) : Res α × List Stream × Stream :=
  if s.isEmpty then
    let (r, l) := k (bufs ++ [s.fork])
    (r, l.take bufs.length, s)
  else
    match enter .paren s with
    | .error e => (.err e, bufs, s)
    | .ok (content, s') =>
      let (r, l) := k (bufs ++ [content])
      (r, l.take bufs.length, s'.dropChild (l.getD bufs.length content))

theorem nextContent_rel {k : List Stream → Res α × List Stream} {k' : List Stream → Res β × List Stream}
    (h : M.RelOn Fresh R k k') {bufs : List Stream} (hb : Fresh bufs) {s : Stream} (hs : s.unexp = none) :
    Res.Rel R (nextContent k bufs s).1 (nextContent k' bufs s).1 ∧
      ∀ a, (nextContent k bufs s).1 = .ok a → (nextContent k bufs s).2 = (nextContent k' bufs s).2 := by
  unfold nextContent
  split
  · obtain ⟨h1, h2⟩ := h (bufs ++ [s.fork]) (hb.append (.single rfl))
    exact ⟨h1, fun a ha => by dsimp only; rw [h2 a ha]⟩
  · cases he : enter .paren s with
    | error e => exact ⟨.err, fun a ha => (nomatch ha)⟩
    | ok x =>
      obtain ⟨c, s'⟩ := x
      obtain ⟨h1, h2⟩ := h (bufs ++ [c]) (hb.append (.single (enter_fresh he hs).1))
      exact ⟨h1, fun a ha => by dsimp only; rw [h2 a ha]⟩

theorem parseTokens_gives {m : M Stream α} {toks : List Tok} {a : α} (h : parseTokens toks m = .ok a) :
    (m ⟨toks, callSite, none⟩).1 = .ok a := by
  cases h1 : (m ⟨toks, callSite, none⟩).1 with
  | err e => obtain ⟨x, hx⟩ := parseTokens_fails h1; rw [hx] at h; cases h
  | panic =>
    unfold Deluxe.parseTokens Deluxe.parse2 at h
    dsimp only at h
    generalize m ⟨toks, callSite, none⟩ = b at h h1
    obtain ⟨b, lb⟩ := b
    dsimp only at h1
    subst h1
    cases h
  | ok b =>
    unfold Deluxe.parseTokens Deluxe.parse2 at h
    dsimp only at h
    generalize m ⟨toks, callSite, none⟩ = b at h h1
    obtain ⟨b, lb⟩ := b
    dsimp only at h1
    subst h1
    dsimp only at h
    cases he : parseEof lb with
    | mk r l =>
      obtain ⟨t, sc, u⟩ := l
      rw [he] at h
      cases r <;> cases u <;> first | (cases h; done) | (cases t <;> cases h <;> rfl)

theorem parseNext_relOn {func : List (Str × Span) → M (List Stream) α} {func' : List (Str × Span) → M (List Stream) β}
    (h : ∀ ps, (func ps).RelOn Fresh R (func' ps)) (attrs : List (List Tok × Str × Span)) (ps : List (Str × Span)) :
    (parseNext func attrs ps).RelOn Fresh R (parseNext func' attrs ps) := by
  induction attrs generalizing ps with
  | nil =>
    intro l hl
    simp only [parseNext, Bind.bind, M.bind]
    have := h ps l hl
    generalize func ps l = a at this ⊢
    generalize func' ps l = b at this ⊢
    obtain ⟨a, la⟩ := a
    obtain ⟨b, lb⟩ := b
    obtain ⟨hab, hl⟩ := this
    simp only at hab hl
    cases hab with
    | err => exact ⟨.err, fun a ha => (nomatch ha)⟩
    | panic => exact ⟨.panic, fun a ha => (nomatch ha)⟩
    | ok h =>
      obtain rfl := hl _ rfl
      dsimp only
      cases eofAll la with
      | mk r l =>
        cases r with
        | ok u => exact ⟨.ok h, fun _ _ => rfl⟩
        | err e => exact ⟨.err, fun _ _ => rfl⟩
        | panic => exact ⟨.panic, fun _ _ => rfl⟩
  | cons a attrs ih =>
    obtain ⟨toks, name, span⟩ := a
    intro bufs hb
    have key := fun s hs => nextContent_rel (ih (ps ++ [(name, span)])) hb (s := s) hs
    simp only [parseNext]
    refine ⟨M.RelOn.parseTokens ?_ toks, fun a ha => ?_⟩
    · intro s hs
      exact ⟨(key s hs).1, fun a ha => congrArg Prod.snd ((key s hs).2 a ha)⟩
    · exact congrArg Prod.fst ((key ⟨toks, callSite, none⟩ rfl).2 a (parseTokens_gives ha))

theorem parseStructAttrTokens_relOn {func : List (Str × Span) → M (List Stream) α}
    {func' : List (Str × Span) → M (List Stream) β} (h : ∀ ps, (func ps).RelOn Fresh R (func' ps))
    (attrs : List (List Tok × Str × Span)) :
    Res.Rel R (parseStructAttrTokens attrs func) (parseStructAttrTokens attrs func') :=
  (parseNext_relOn h attrs [] [] (fun _ h => (nomatch h))).1

end

variable {V : Type} [Env] {idx : List Nat}

/-- The flat fields that are parsed read everything if they succeed. -/
def FlatDrain (fields : List (Field V)) : Prop :=
  ∀ f ∈ fields, f.flatParsable = true → ∀ pre span allowed, Drains (f.flatCall pre span allowed)

omit [Env] in
theorem flatPass_drained {fs : List (Field V)} (hf : FlatDrain fs) (pre : Str) (span : Span) (allowed : List Str)
    (sts : Slots V) (hlen : sts.length = fs.length) {errs errs' : Errors} {l l' : List Stream} (hl : Fresh l)
    {slots : Slots V} (h : flatPass pre span allowed fs sts errs l = (.ok (slots, errs'), l')) (he : errs'.toList = []) :
    errs.toList = [] ∧ l' = if fs.any (·.flatParsable) then drained l else l := by
  induction fs generalizing sts errs l slots with
  | nil =>
    cases sts with
    | nil => simp only [flatPass] at h; cases h; exact ⟨he, rfl⟩
    | cons st sts => cases hlen
  | cons f fs ih =>
    cases sts with
    | nil => cases hlen
    | cons st sts =>
      have hlen : sts.length = fs.length := by simpa using hlen
      have ih := fun {errs} {l} hl {slots} h =>
        ih (fun g hg => hf g (List.mem_cons_of_mem _ hg)) sts hlen (errs := errs) (l := l) hl (slots := slots) h
      have tail : ∀ {x : FieldStatus V} {e1 l1}, Fresh l1 →
          ((flatPass pre span allowed fs sts e1 l1).1.map (fun y => (x :: y.1, y.2)),
            (flatPass pre span allowed fs sts e1 l1).2) = (.ok (slots, errs'), l') →
          e1.toList = [] ∧ l' = if fs.any (·.flatParsable) then drained l1 else l1 := by
        intro x e1 l1 h1 h
        cases hr : flatPass pre span allowed fs sts e1 l1 with
        | mk r l2 =>
          rw [hr] at h
          cases r with
          | ok y =>
            obtain ⟨y1, y2⟩ := y
            simp only [Res.map, Prod.mk.injEq, Res.ok.injEq] at h
            obtain ⟨⟨-, rfl⟩, rfl⟩ := h
            exact ih h1 hr
          | err e => simp [Res.map] at h
          | panic => simp [Res.map] at h
      simp only [flatPass] at h
      by_cases hp : f.flatParsable = true
      · rw [if_pos hp] at h
        have hany : ((f :: fs).any fun x => x.flatParsable) = true := by simp [hp]
        rw [hany, if_pos rfl]
        by_cases ha : fs.any (·.flatParsable) = true
        · rw [if_pos ha] at h
          dsimp only at h
          cases hc : (f.flatCall pre span allowed (forkInputs l)).1 with
          | ok v => rw [hc] at h; exact (by simpa only [ha, if_true] using tail hl h)
          | err e =>
            rw [hc] at h
            have := (tail hl h).1
            simp [SynErr.toList] at this
          | panic => rw [hc] at h; cases h
        · rw [if_neg ha] at h
          have hd := hf f List.mem_cons_self hp pre span allowed l hl
          cases hc : f.flatCall pre span allowed l with
          | mk r l1 =>
            rw [hc] at h hd
            dsimp only at h hd
            cases r with
            | ok v =>
              obtain rfl := hd v rfl
              have hl1 : Fresh (drained l) := by
                intro s hs
                obtain ⟨t, ht, rfl⟩ := List.mem_map.1 hs
                exact hl t ht
              have := tail hl1 h
              rwa [if_neg ha] at this
            | err e =>
              dsimp only at h
              have hf' : (flatPass pre span allowed fs sts (errs.pushSyn e) l1) = (.ok (sts, errs.pushSyn e), l1) :=
                flatPass_none (by simpa using ha) pre span allowed sts hlen _ _
              rw [hf'] at h
              simp only [Res.map, Prod.mk.injEq, Res.ok.injEq] at h
              obtain ⟨⟨-, rfl⟩, -⟩ := h
              simp [SynErr.toList] at he
            | panic => cases h
      · rw [if_neg hp] at h
        have : ((f :: fs).any fun x => x.flatParsable) = fs.any (·.flatParsable) := by simp [hp]
        rw [this]
        exact tail hl h

section
variable {d : Fields V}

omit [Env] in
theorem postNamed_nil (hm : ∀ f ∈ d.fields, ∀ n sp, f.item.missing n sp ≠ .panic) {pre : Str} {span : Span} {sts : Slots V}
    {errs : Errors} {vs : List V} (h : postNamed d pre span sts errs = .ok vs) : errs.toList = [] := by
  obtain ⟨errs', h1, h2⟩ := postNamed_eq d hm pre span sts errs
  rw [h1] at h
  cases he : errs'.toList with
  | nil => rw [he] at h2; simp at h2; exact h2.1
  | cons m ms =>
    obtain ⟨e, hx, -⟩ := (finish_eq d (setSlots d (missSlots d pre span sts)) errs').1 (by simp [he])
    rw [hx] at h
    cases h

/-- A structure with flat fields reads everything if it succeeds. -/
theorem namedFlat_drains (hg : FieldsGood d.fields) (hf : FlatDrain d.fields) (ha : d.fields.any (·.flatParsable) = true)
    (allowed : List Str) (mode : Mode) (pre : Str) (validate : Bool) : Drains (namedFlat d allowed mode pre validate) := by
  intro l hl vs h
  unfold namedFlat at h ⊢
  simp only [ha, if_true] at h ⊢
  obtain ⟨rs, fatal, l0, hr⟩ := ReadsAll.exists (structItem_good (fields := d.fields) hg.named pre) (forkInputs l)
  obtain ⟨e0, h1, -⟩ := parseStruct_reads d hg.named allowed pre validate hr
  have hlen : (parseStruct (namedStep d allowed pre validate) (⟨d.init, Errors.new⟩, forkInputs l)).2.1.val.length =
      d.fields.length := by
    rw [h1]
    simp [itemSlots]
  clear h1
  generalize parseStruct (namedStep d allowed pre validate) (⟨d.init, Errors.new⟩, forkInputs l) = x at h hlen ⊢
  obtain ⟨r, ⟨acc, l1⟩⟩ := x
  have key : ∀ errs, (match flatPass pre (mode.toFullSpan l) allowed d.fields acc.val errs l with
      | (.ok (slots, errs), l2) => (postNamed d pre (mode.toFullSpan l) slots errs, l2)
      | (.err e, l2) => (.err e, l2)
      | (.panic, l2) => (.panic, l2) : Res (List V) × List Stream).1 = .ok vs →
      (match flatPass pre (mode.toFullSpan l) allowed d.fields acc.val errs l with
      | (.ok (slots, errs), l2) => (postNamed d pre (mode.toFullSpan l) slots errs, l2)
      | (.err e, l2) => (.err e, l2)
      | (.panic, l2) => (.panic, l2) : Res (List V) × List Stream).2 = drained l := by
    intro errs h
    cases hr : flatPass pre (mode.toFullSpan l) allowed d.fields acc.val errs l with
    | mk r l2 =>
      rw [hr] at h
      cases r with
      | ok x =>
        obtain ⟨slots, errs'⟩ := x
        have := (flatPass_drained hf pre _ allowed acc.val hlen hl hr (postNamed_nil hg.missing h)).2
        rwa [if_pos ha] at this
      | err e => cases h
      | panic => cases h
  cases r with
  | panic => cases h
  | ok u => exact key _ h
  | err e => exact key _ h

/-- If both succeed both leave the same. -/
theorem Picks.left_ok (h : Picks idx d.fields) (hg : FieldsGood d.fields) (ho : OneOwner d.fields)
    (hf : FlatDrain d.fields) (allowed allowed' : List Str) (mode : Mode) (pre : Str) (validate : Bool)
    {l : List Stream} (hl : Fresh l) {vs ws : List V} (h1 : (namedFlat d allowed mode pre validate l).1 = .ok vs)
    (h2 : (namedFlat (d.select idx) allowed' mode pre validate l).1 = .ok ws) :
    (namedFlat d allowed mode pre validate l).2 = (namedFlat (d.select idx) allowed' mode pre validate l).2 := by
  by_cases ha : d.fields.any (·.flatParsable) = true
  · have ha' : (d.select idx).fields.any (·.flatParsable) = true := by
      have := (h.filter (d := d) (·.flatParsable) (by
        intro f _ hf
        simp only [Field.flatParsable, Bool.and_eq_true] at hf
        exact hf.2)).length_eq
      apply Decidable.byContradiction
      intro hn
      apply absurd ha
      have hn : (Deluxe.select idx d.fields).filter (·.flatParsable) = [] := by
        simpa [Fields.select] using hn
      rw [hn] at this
      simpa using this
    have hf' : FlatDrain (d.select idx).fields := fun f hm => hf f (select_mem hm)
    exact (namedFlat_drains hg hf ha allowed mode pre validate l hl vs h1).trans
      (namedFlat_drains hg.select hf' ha' allowed' mode pre validate l hl ws h2).symm
  · refine h.left hg ho ?_ allowed allowed' mode pre validate l
    simpa using ha

end

section
variable {d : StructDef V} {thens : List (List V → Except SynErr (List V))}

omit [Env] in
theorem runAndThens_from {α : Type} {thens : List (α → Except SynErr α)} {r : Res α} {a : α}
    (h : runAndThens thens r = .ok a) : ∃ b, r = .ok b := by
  cases r with
  | ok b => exact ⟨b, rfl⟩
  | err e => cases h
  | panic => cases h

/-- The outcome of a structure and what it leaves. -/
theorem Picks.named_fresh {f : Fields V} (h : Picks idx f.fields) (hg : FieldsGood f.fields) (ho : OneOwner f.fields)
    (hf : FlatDrain f.fields) {R : List V → List V → Prop} {allowed allowed' : List Str} {mode : Mode} {pre : Str}
    {validate : Bool} (hr : ∀ {l}, Fresh l → Res.Rel (Restores idx f) (namedFlat f allowed mode pre validate l).1
      (namedFlat (f.select idx) allowed' mode pre validate l).1)
    (hth : ∀ vs ws, Restores idx f vs ws → Res.Rel R (runAndThens d.andThens (.ok vs)) (runAndThens thens (.ok ws))) :
    M.RelOn Fresh R (M.mapRes (runAndThens d.andThens) (namedFlat f allowed mode pre validate))
      (M.mapRes (runAndThens thens) (namedFlat (f.select idx) allowed' mode pre validate)) := by
  intro l hl
  have hr := hr hl
  refine ⟨Picks.then R hr hth, fun a ha => ?_⟩
  simp only [M.mapRes] at ha ⊢
  obtain ⟨vs, hvs⟩ := runAndThens_from ha
  rw [hvs] at hr
  cases hws : (namedFlat (f.select idx) allowed' mode pre validate l).1 with
  | ok ws => exact h.left_ok hg ho hf allowed allowed' mode pre validate hl hvs hws
  | err e => rw [hws] at hr; cases hr
  | panic => rw [hws] at hr; cases hr

theorem Picks.dict_fresh (h : Picks idx d.fields) (hs : d.shape = .named) (ha : Accepted d.data) (ht : d.isTransparent = false)
    (hg : FieldsGood d.fields) (ho : OneOwner d.fields) (hn : NamesOnly d.fields) (hf : FlatDrain d.fields)
    (R : List V → List V → Prop)
    (hth : ∀ vs ws, Restores idx d.data vs ws →
      Res.Rel R (runAndThens d.andThens (.ok vs)) (runAndThens thens (.ok ws)))
    (hu : ∀ (i : Nat) f, d.fields[i]? = some f → i ∉ idx → ∃ v, Unparsed d.data f i v)
    (hacc : Field.acceptsAll d.fields = Field.acceptsAll (select idx d.fields)) :
    d.dict.RelFresh R (d.select idx thens).dict := by
  have key : ∀ mode pre validate, M.RelOn Fresh R (d.flatNamed.parse mode pre validate)
      ((d.select idx thens).flatNamed.parse mode pre validate) := by
    intro mode pre validate
    simp only [StructDef.flatNamed, h.data]
    exact Picks.named_fresh (f := d.data) h hg ho hf
      (fun hl => h.rel (d := d.data) ha ht hg ho hn h.fieldNames mode pre validate (.inl hl) hu) hth
  have e : (d.select idx thens).acceptsAll = d.acceptsAll := by
    simp only [StructDef.acceptsAll, hacc]
    rfl
  have ht' : (d.select idx thens).isTransparent = false := h.transparent.trans ht
  have hs' : (d.select idx thens).shape = .named := hs
  have k1 := fun mode => key mode [] (!d.acceptsAll)
  unfold StructDef.dict
  simp only [ht, ht', hs, hs', e, Bool.false_eq_true, if_false, Dict.mk']
  have p := fun m => (k1 m).single.delimited .brace
  have f := fun sp => (k1 (.named sp)).single.parseEmpty sp
  exact ⟨p, k1, f, fun n sp => M.RelOn.namedItem p k1 f sp⟩

/-- The code for attributes. -/
theorem Picks.attrBody_fresh (h : Picks idx d.fields) (hs : d.shape = .named) (site : Site V) (ha : Accepted (d.attrData site))
    (ht : d.isTransparent = false) (hg : FieldsGood d.fields) (ho : OneOwner d.fields) (hn : NamesOnly d.fields)
    (hf : FlatDrain d.fields) (R : List V → List V → Prop)
    (hth : ∀ vs ws, Restores idx (d.attrData site) vs ws →
      Res.Rel R (runAndThens d.andThens (.ok vs)) (runAndThens thens (.ok ws)))
    (hu : ∀ (i : Nat) f, d.fields[i]? = some f → i ∉ idx → ∃ v, Unparsed (d.attrData site) f i v)
    (hacc : Field.acceptsAll d.fields = Field.acceptsAll (select idx d.fields)) (mode : Mode) :
    (d.attrBody site mode).RelOn Fresh R ((d.select idx thens).attrBody site mode) := by
  have e : (d.select idx thens).acceptsAll = d.acceptsAll := by
    simp only [StructDef.acceptsAll, hacc]
    rfl
  have ht' : (d.select idx thens).isTransparent = false := h.transparent.trans ht
  have hs' : (d.select idx thens).shape = .named := hs
  unfold StructDef.attrBody
  simp only [ht, ht', hs, hs', e, Bool.false_eq_true, if_false, h.attrData]
  exact Picks.named_fresh (f := d.attrData site) h hg ho hf
    (fun hl => h.rel (d := d.attrData site) ha ht hg ho hn h.fieldNames mode _ _ (.inl hl) hu) hth

theorem Picks.attributes_fresh (h : Picks idx d.fields) (hs : d.shape = .named)
    (ha : ∀ site : Site V, site.obj.isSome = true → Accepted (d.attrData site))
    (ht : d.isTransparent = false) (hg : FieldsGood d.fields) (ho : OneOwner d.fields) (hn : NamesOnly d.fields)
    (hf : FlatDrain d.fields) (R : List V → List V → Prop) (obj : V)
    (hth : ∀ name vs ws, Restores idx (d.attrData ⟨some obj, name⟩) vs ws →
      Res.Rel R (runAndThens d.andThens (.ok vs)) (runAndThens thens (.ok ws)))
    (hu : ∀ name (i : Nat) f, d.fields[i]? = some f → i ∉ idx → ∃ v, Unparsed (d.attrData ⟨some obj, name⟩) f i v)
    (hacc : Field.acceptsAll d.fields = Field.acceptsAll (select idx d.fields)) (attributes : List (List Str))
    (toks : List (List Tok × Str × Span)) :
    Res.Rel R (parseStructAttrTokens toks ((d.attrTarget attributes).func obj))
      (parseStructAttrTokens toks (((d.select idx thens).attrTarget attributes).func obj)) :=
  parseStructAttrTokens_relOn
    (fun _ => h.attrBody_fresh hs ⟨some obj, _⟩ (ha _ rfl) ht hg ho hn hf R (hth _) (hu _) hacc _) toks

end

end Deluxe
