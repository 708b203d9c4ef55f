import Verif.Lemmas.Keys
/-!
# C23, C24, C26: sequences and sets, and collecting them from repeated keys
-/
namespace Deluxe

/-! ## Specification -/

/-- The span reported for an item: the first token after it joined with its own first token. -/
def itemSpan [Env] (s s' : Stream) : Span := (Env.join s'.span s.span).getD s.span

/-- An element and its span. -/
def ElemSeg [Env] {α : Type} (p : M Stream α) (v rest : List Tok) (sc : Span)
    (b : Except SynErr α × Span) : Prop :=
  ReadsAs p v rest sc b.1 ∧ b.2 = itemSpan ⟨v ++ rest, sc, none⟩ ⟨rest, sc, none⟩

/-- The messages of a set: those of failing elements, and one for each element equal to an earlier
one. -/
def setMsgs {α : Type} [DecidableEq α] (seen : List α) : List (Except SynErr α × Span) → List Msg
  | [] => []
  | (.error e, _) :: xs => e.toList ++ setMsgs seen xs
  | (.ok a, sp) :: xs =>
    if a ∈ seen then ⟨sp, .duplicateKey⟩ :: setMsgs seen xs else setMsgs (seen ++ [a]) xs

/-- An item for a field that collects the values of some names (`append`): its key is one of `names`
and the rest of its tokens is read as a value of that key, or it is another key and the tokens after
it, which have no comma, are ignored. -/
inductive NamedSeg [Env] {α : Type} (names : List Str) (p : Str → Span → M Stream α)
    (v rest : List Tok) (sc : Span) : Option (Except SynErr α × Span) → Prop
  | mine {segs sp vt x} : KeyToks segs sp v vt → keyString segs ∈ names →
      ReadsAs (p (keyString segs) sp) vt rest sc x →
      NamedSeg names p v rest sc
        (some (x, itemSpan ⟨vt ++ rest, sc, none⟩ ⟨rest, sc, none⟩))
  | other {segs sp vt} : KeyToks segs sp v vt → keyString segs ∉ names → NoComma vt →
      NamedSeg names p v rest sc none

/-! ## Lemmas -/

/-- The item reader that remembers its span. -/
def spanItem [Env] {α : Type} (item : M Stream α) : M Stream (Except SynErr α × Span) := fun s =>
  match item s with
  | (.ok a, s') => (.ok (.ok a, itemSpan s s'), s')
  | (.err e, s') => (.ok (.error e, itemSpan s (skipMetaItem s')), skipMetaItem s')
  | (.panic, s') => (.panic, s')

theorem spanItem_good [Env] {α} {item : M Stream α} (hi : Good item) : Good (spanItem item) := by
  intro s
  obtain ⟨g1, g2⟩ := hi s
  simp only [spanItem]
  split
  · rename_i h; rw [h] at g2; exact ⟨by simp, g2⟩
  · rename_i h; rw [h] at g2; exact ⟨by simp, (skipMetaItem_adv _).trans g2⟩
  · rename_i h; rw [h] at g1; exact absurd rfl g1

theorem itemSpan_cell [Env] (a b : List Tok) (sc : Span) (u u' : Option Span) :
    itemSpan ⟨a, sc, u⟩ ⟨b, sc, u'⟩ = itemSpan ⟨a, sc, none⟩ ⟨b, sc, none⟩ := rfl

theorem spanItem_seg [Env] {α} (p : M Stream α) : SegSound (spanItem p) (ElemSeg p) := by
  intro v rest sc b hr _ hseg u
  obtain ⟨x, sp⟩ := b
  obtain ⟨hseg, rfl⟩ := hseg
  cases x with
  | ok a =>
    obtain ⟨u', h⟩ := hseg u
    exact ⟨u', by simp only [spanItem, h]; rfl⟩
  | error e =>
    obtain ⟨v', u', hv, h⟩ := hseg u
    refine ⟨u', ?_⟩
    simp only [spanItem, h, skipMetaItem, skipToks_boundary hv hr]
    rfl

theorem spanItem_ok [Env] {α} {p : M Stream α} {s a sp s'}
    (h : spanItem p s = (.ok (.ok a, sp), s')) : p s = (.ok a, s') := by
  simp only [spanItem] at h
  split at h <;> simp at h
  rename_i h'
  obtain ⟨⟨rfl, _⟩, rfl⟩ := h
  exact h'

theorem okVals_map {α β : Type} (f : β → α) (l : List β) :
    okVals (l.map fun x => Except.ok (f x)) = l.map f := by
  induction l with
  | nil => rfl
  | cons x l ih => simp only [List.map_cons, okVals, ih]

/-- Adds to a sequence. -/
def seqAdd {α : Type} (acc : Acc (List α)) (x : Except SynErr α) : Acc (List α) :=
  match x with
  | .ok a => { acc with val := acc.val ++ [a] }
  | .error e => { acc with errs := acc.errs.pushSyn e }

/-- Adds to a set. -/
def setAdd {α : Type} [DecidableEq α] (acc : Acc (List α)) (x : Except SynErr α × Span) :
    Acc (List α) :=
  match x.1 with
  | .ok a => if a ∈ acc.val then { acc with errs := acc.errs.push x.2 .duplicateKey }
      else { acc with val := acc.val ++ [a] }
  | .error e => { acc with errs := acc.errs.pushSyn e }

theorem seqAdd_fold {α : Type} (xs : List (Except SynErr α)) (acc : Acc (List α)) :
    (xs.foldl seqAdd acc).val = acc.val ++ okVals xs ∧
      (xs.foldl seqAdd acc).errs.toList = acc.errs.toList ++ errMsgs xs := by
  induction xs generalizing acc with
  | nil => simp [okVals, errMsgs]
  | cons x xs ih =>
    rw [List.foldl_cons, (ih _).1, (ih _).2]
    cases x <;> simp [seqAdd, okVals, errMsgs]

theorem setAdd_fold {α : Type} [DecidableEq α] (xs : List (Except SynErr α × Span))
    (acc : Acc (List α)) :
    (xs.foldl setAdd acc).errs.toList = acc.errs.toList ++ setMsgs acc.val xs ∧
      (setMsgs acc.val xs = [] → (xs.foldl setAdd acc).val = acc.val ++ okVals (xs.map (·.1))) := by
  induction xs generalizing acc with
  | nil => simp [okVals, setMsgs]
  | cons x xs ih =>
    obtain ⟨x, sp⟩ := x
    rw [List.foldl_cons, (ih _).1]
    have ih2 := (ih (setAdd acc (x, sp))).2
    cases x with
    | error e =>
      simp only [setAdd, Errors.toList_pushSyn, setMsgs, List.append_assoc, true_and]
      intro h
      simp [SynErr.toList] at h
    | ok a =>
      simp only [setAdd, setMsgs] at ih2 ⊢
      by_cases ha : a ∈ acc.val
      · simp [ha]
      · simp only [ha, if_false] at ih2 ⊢
        refine ⟨trivial, fun h => ?_⟩
        rw [ih2 h]
        simp [okVals]

/-- Success of a set: all elements parse and none equals an earlier one. -/
theorem setMsgs_eq_nil {α : Type} [DecidableEq α] (xs : List (Except SynErr α × Span))
    (seen : List α) :
    setMsgs seen xs = [] ↔ (∀ x ∈ xs, ∃ a, x.1 = .ok a) ∧ (okVals (xs.map (·.1))).Nodup ∧
      ∀ a ∈ okVals (xs.map (·.1)), a ∉ seen := by
  induction xs generalizing seen with
  | nil => simp [setMsgs, okVals]
  | cons x xs ih =>
    obtain ⟨x, sp⟩ := x
    cases x with
    | error e => simp [setMsgs, SynErr.toList]
    | ok a =>
      simp only [setMsgs]
      by_cases ha : a ∈ seen
      · simp [ha, okVals]
      · simp only [ha, if_false, ih, okVals, List.map_cons, List.nodup_cons, List.mem_cons,
          List.mem_append, not_or]
        constructor
        · rintro ⟨h1, h2, h3⟩
          exact ⟨by rintro x (rfl | hx); exact ⟨a, rfl⟩; exact h1 x hx,
            ⟨fun hm => (h3 a hm).2.1 rfl, h2⟩,
            by rintro y (rfl | hy); exact ha; exact (h3 y hy).1⟩
        · rintro ⟨h1, ⟨h2, h3⟩, h4⟩
          exact ⟨fun x hx => h1 x (.inr hx), h3, fun y hy => ⟨h4 y (.inr hy),
            by rintro rfl; exact h2 hy, by simp⟩⟩

theorem foldStep_congr {β κ : Type} {a b : M Stream β} (g : κ → β → Stream → Stream → κ) (h : a = b) :
    foldStep a g = foldStep b g := by rw [h]

theorem seqStep_eq {α : Type} (item : M Stream α) :
    stepPush item pushBack = foldStep (recover item) (fun k b _ _ => seqAdd k b) := by
  rw [stepPush_eq]
  rfl

theorem setStep_eq [Env] {α : Type} [DecidableEq α] (item : M Stream α) :
    stepPush item setInsert = foldStep (spanItem item) (fun k b _ _ => setAdd k b) := by
  funext st
  obtain ⟨acc, s⟩ := st
  simp only [stepPush, foldStep, spanItem]
  cases h : item s with
  | mk r s' => cases r <;> rfl

theorem runAcc_ok_of {γ : Type} {init : γ} {m : M (Acc γ × List Stream) Unit} {l l' : List Stream}
    {acc : Acc γ} (h : m (⟨init, Errors.new⟩, l) = (.ok (), (acc, l'))) :
    runAcc init m l = (acc.errs.intoResult acc.val, l') := by
  simp only [runAcc, h]

theorem runAccPush_ok_of {γ : Type} {init : γ} {m : M (Acc γ × List Stream) Unit}
    {l l' : List Stream} {acc : Acc γ} (h : m (⟨init, Errors.new⟩, l) = (.ok (), (acc, l'))) :
    runAccPush init m l = (acc.errs.intoResult acc.val, l') := by
  simp only [runAccPush, h]

theorem runAcc_ok {γ : Type} {init : γ} {m : M (Acc γ × List Stream) Unit} {l l' : List Stream}
    {v : γ} (h : runAcc init m l = (.ok v, l')) :
    ∃ acc, m (⟨init, Errors.new⟩, l) = (.ok (), (acc, l')) ∧ acc.errs.toList = [] ∧ acc.val = v := by
  simp only [runAcc] at h
  split at h <;> simp at h
  rename_i acc l1 hm
  obtain ⟨h1, rfl⟩ := h
  refine ⟨acc, hm, ?_⟩
  rcases acc with ⟨v', ⟨_ | e⟩⟩
  · simp [Errors.intoResult] at h1; exact ⟨rfl, h1⟩
  · simp [Errors.intoResult] at h1

theorem runAccPush_ok {γ : Type} {init : γ} {m : M (Acc γ × List Stream) Unit} {l l' : List Stream}
    {v : γ} (h : runAccPush init m l = (.ok v, l')) :
    ∃ acc, m (⟨init, Errors.new⟩, l) = (.ok (), (acc, l')) ∧ acc.errs.toList = [] ∧ acc.val = v := by
  simp only [runAccPush] at h
  split at h <;> simp at h
  · rename_i acc l1 hm
    obtain ⟨h1, rfl⟩ := h
    refine ⟨acc, hm, ?_⟩
    rcases acc with ⟨v', ⟨_ | e⟩⟩
    · simp [Errors.intoResult] at h1; exact ⟨rfl, h1⟩
    · simp [Errors.intoResult] at h1
  · rename_i e acc l1 hm
    rcases acc with ⟨v', ⟨_ | e⟩⟩ <;> simp [Errors.pushSyn, Errors.intoResult] at h

theorem intoResult_collects {γ : Type} {errs : Errors} {v w : γ} {msgs : List Msg}
    (he : errs.toList = msgs) (hv : msgs = [] → v = w) : Collects (errs.intoResult v) w msgs := by
  have := Errors.intoResult_eq errs v
  rw [he] at this
  exact ⟨fun h => by rw [this.1 h, hv h], fun h => this.2 h⟩

/-- A group whose content is read to the end is read like its content. -/
theorem delimited_inner {α : Type} {f : Mode → M (List Stream) α} {m : Mode} {dl : Delim}
    {inner : List Tok} {a b : Span} {rest : List Tok} {sc : Span} {u : Option Span} {r : Res α}
    {l' : List Stream} (h : f m [⟨inner, b, u⟩] = (r, l')) (hl : AdvL l' [⟨inner, b, u⟩])
    (hr : AllRead l') (hp : r ≠ .panic) :
    ∃ u', parseDelimitedMetaItem dl f m ⟨.group dl inner a b :: rest, sc, u⟩ =
      (r, ⟨rest, sc, u'⟩) := by
  cases hl with
  | @cons s _ l _ hs hl =>
    cases hl
    have h0 : s.toks = [] := hr s (by simp)
    simp only [parseDelimitedMetaItem, parseDelimitedWith, withContent, enter, if_true, Bind.bind,
      M.bind, single, h, List.headD_cons]
    cases r with
    | panic => exact absurd rfl hp
    | err e => exact ⟨_, rfl⟩
    | ok v =>
      have : parseEof s = (.ok (), s) := by
        have h2 := (c04_eof s).1 (.inl h0)
        rw [h2]; cases s; simp_all
      simp only [this, Pure.pure, M.pure]
      exact ⟨_, rfl⟩

/-! ## C23 -/

/-- C23: on any comma separated lists of elements spread over any number of streams, with or without
trailing commas, a sequence is exactly the list of the element values in order; if any element fails
the error has exactly the messages of all failing elements in order.  Everything is consumed. -/
theorem c23_sequence {α : Type} (d : Dict α) (hd : Good (d.parse .unnamed)) (m : Mode) (i : Nat)
    (l : List Stream) (rs : List (Except SynErr α))
    (h : ItemsAll (ReadsAs (d.parse .unnamed)) l rs) :
    ∃ r l', (seqFlat d).parse m i l = (r, l') ∧ (seqDict d).inline m l = (r, l') ∧ AllRead l' ∧
      Collects r (okVals rs) (errMsgs rs) := by
  obtain ⟨l', h1, h2⟩ := h.run (recover_good hd) (recover_segSound _) seqAdd ⟨[], Errors.new⟩
  have h3 : (seqFlat d).parse m i l = ((rs.foldl seqAdd ⟨[], Errors.new⟩).errs.intoResult
      (rs.foldl seqAdd ⟨[], Errors.new⟩).val, l') := by
    simp only [seqFlat, seqStep_eq]
    exact runAcc_ok_of h1
  have := seqAdd_fold rs ⟨[], Errors.new⟩
  refine ⟨_, l', h3, h3, h2, intoResult_collects (by simpa using this.2) (fun _ => by simpa using this.1)⟩

/-- C23: the same for the list in brackets. -/
theorem c23_bracketed {α : Type} (d : Dict α) (hd : ∀ m, Good (d.parse m)) (m : Mode)
    (inner : List Tok) (a b : Span) (rest : List Tok) (sc : Span) (u : Option Span)
    (rs : List (Except SynErr α)) (h : Items (ReadsAs (d.parse .unnamed)) b inner rs) :
    ∃ r u', (seqDict d).parse m ⟨.group .bracket inner a b :: rest, sc, u⟩ = (r, ⟨rest, sc, u'⟩) ∧
      Collects r (okVals rs) (errMsgs rs) := by
  have h' : ItemsAll (ReadsAs (d.parse .unnamed)) [⟨inner, b, u⟩] rs := by
    have := ItemsAll.cons (s := ⟨inner, b, u⟩) h .nil
    simpa using this
  obtain ⟨r, l', h1, _, h2, h3⟩ := c23_sequence d (hd _) .unnamed 0 _ rs h'
  have hg := seqFlat_good hd .unnamed 0 [⟨inner, b, u⟩]
  rw [h1] at hg
  obtain ⟨u', h4⟩ := delimited_inner (f := fun m => (seqFlat d).parse m 0) (dl := .bracket) (a := a)
    (rest := rest) (sc := sc) h1 hg.2 h2 hg.1
  exact ⟨r, u', h4, h3⟩

/-- C23: conversely, whenever a sequence is returned, its elements are what the element parser reads
one after the other, separated by single commas, and nothing is left. -/
theorem c23_only_elements {α : Type} (d : Dict α) (hd : Good (d.parse .unnamed)) (m : Mode) (i : Nat)
    (l l' : List Stream) (vs : List α) (h : (seqFlat d).parse m i l = (.ok vs, l')) :
    ∃ rs, ReadsAll (d.parse .unnamed) l rs none l' ∧ vs = rs.map (·.1) ∧ AllRead l' := by
  simp only [seqFlat, seqStep_eq] at h
  obtain ⟨acc, h1, h2, rfl⟩ := runAcc_ok h
  obtain ⟨rs, h3, rfl⟩ := fold_ok (recover_good hd) _ h1
  have := seqAdd_fold (rs.map (·.1)) ⟨[], Errors.new⟩
  rw [h2] at this
  have he : errMsgs (rs.map (·.1)) = [] := by simpa using this.2.symm
  have hok := (errMsgs_eq_nil _).1 he
  obtain ⟨rs', h4, h5⟩ := h3.of_recover (item := d.parse .unnamed) (f := Except.ok)
    (fun s a s' h => by
      simp only [recover] at h
      split at h <;> simp at h
      rename_i h'; obtain ⟨rfl, rfl⟩ := h; exact h')
    (fun x hx => hok x.1 (List.mem_map_of_mem hx))
  refine ⟨rs', h4, ?_, h3.read⟩
  rw [this.1, h5]
  simp [okVals_map]

/-- Non-trivial case: two streams, a failing element in the middle, a trailing comma. -/
example : ItemsAll (ReadsAs (boolDict.parse .unnamed))
    [⟨[.ident "true".toList 1, .punct ',' false 2, .lit (.int 5) 3], 9, none⟩,
     ⟨[.ident "false".toList 4, .punct ',' false 5], 9, none⟩]
    [.ok true, .error (.new 3 (.expected "boolean literal".toList)), .ok false] :=
  .cons (bs := ([.ok true, .error _] : List (Except SynErr Bool)))
    (.cons (v := [.ident "true".toList 1]) ⟨_, _, rfl⟩ (fun u => ⟨u, rfl⟩)
      (.last (by simp) (fun u => ⟨[], u, by simp [NoComma], rfl⟩)))
    (.cons (bs := ([.ok false] : List (Except SynErr Bool)))
      (.cons (v := [.ident "false".toList 4]) ⟨_, _, rfl⟩ (fun u => ⟨u, rfl⟩) .nil) .nil)

/-- Outside well-formed lists messages can be lost: when a later element is followed by something
other than a comma, the messages of earlier elements are dropped. -/
theorem c23_malformed_drops_errors : ¬ ∀ (α : Type) (d : Dict α) (m : Mode) (s : Stream) (e : SynErr)
    (c : Tok) (rest : List Tok) (s1 : Stream), Comma c → d.parse .unnamed s = (.err e, s1) →
    s1.toks = c :: rest → ∀ r l', (seqFlat d).parse m 0 [s] = (r, l') →
    ∃ e', r = .err e' ∧ e.head ∈ e'.toList := by
  intro h
  obtain ⟨e', h1, h2⟩ := h (List Tok) { tokenStreamDict with
      parse := fun _ s => match s.toks with
        | .ident x sp :: rest => (.ok [.ident x sp], { s with toks := rest })
        | _ => (.err (.new s.span .expectedToken), { s with toks := s.toks.tail }) } .unnamed
    ⟨[.lit (.int 1) 1, .punct ',' false 2, .ident ['x'] 3, .ident ['y'] 4], 9, none⟩
    (.new 1 .expectedToken) (.punct ',' false 2) [.ident ['x'] 3, .ident ['y'] 4] _
    ⟨_, _, rfl⟩ rfl rfl _ _ rfl
  cases h1
  simp [SynErr.toList, SynErr.new] at h2

/-! ## C24 -/

/-- C24: on comma separated elements a set is the elements if there is no failing and no repeated one,
and otherwise an error with exactly the messages of the failing elements and one "Duplicate key" per
element equal to an earlier one, in order. -/
theorem c24_set [Env] {α : Type} [DecidableEq α] (d : Dict α) (hd : Good (d.parse .unnamed))
    (m : Mode) (i : Nat) (l : List Stream) (rs : List (Except SynErr α × Span))
    (h : ItemsAll (ElemSeg (d.parse .unnamed)) l rs) :
    ∃ r l', (setFlat d).parse m i l = (r, l') ∧ (setDict d).inline m l = (r, l') ∧ AllRead l' ∧
      Collects r (okVals (rs.map (·.1))) (setMsgs [] rs) ∧
      ((∃ vs, r = .ok vs) ↔ (∀ x ∈ rs, ∃ a, x.1 = .ok a) ∧ (okVals (rs.map (·.1))).Nodup) := by
  obtain ⟨l', h1, h2⟩ := h.run (spanItem_good hd) (spanItem_seg _) setAdd ⟨[], Errors.new⟩
  have h3 : (setFlat d).parse m i l = ((rs.foldl setAdd ⟨[], Errors.new⟩).errs.intoResult
      (rs.foldl setAdd ⟨[], Errors.new⟩).val, l') := by
    simp only [setFlat, setStep_eq]
    exact runAcc_ok_of h1
  have hf := setAdd_fold rs ⟨[], Errors.new⟩
  have hc : Collects ((rs.foldl setAdd ⟨[], Errors.new⟩).errs.intoResult
      (rs.foldl setAdd ⟨[], Errors.new⟩).val) (okVals (rs.map (·.1))) (setMsgs [] rs) :=
    intoResult_collects (by simpa using hf.1) (fun h => by simpa using hf.2 h)
  refine ⟨_, l', h3, h3, h2, hc, ?_⟩
  have hn := setMsgs_eq_nil rs []
  simp only [List.not_mem_nil, not_false_eq_true, implies_true, and_true] at hn
  rw [← hn]
  constructor
  · rintro ⟨vs, hv⟩
    by_cases hm : setMsgs [] rs = []
    · exact hm
    · obtain ⟨e, he, _⟩ := hc.2 hm
      rw [he] at hv; cases hv
  · intro hm
    exact ⟨_, hc.1 hm⟩

/-- C24: conversely, a returned set consists of what the element parser reads one after the other,
separated by single commas, all distinct, and nothing is left. -/
theorem c24_only_elements [Env] {α : Type} [DecidableEq α] (d : Dict α)
    (hd : Good (d.parse .unnamed)) (m : Mode) (i : Nat) (l l' : List Stream) (vs : List α)
    (h : (setFlat d).parse m i l = (.ok vs, l')) :
    ∃ rs, ReadsAll (d.parse .unnamed) l rs none l' ∧ vs = rs.map (·.1) ∧ vs.Nodup ∧ AllRead l' := by
  simp only [setFlat, setStep_eq] at h
  obtain ⟨acc, h1, h2, rfl⟩ := runAcc_ok h
  obtain ⟨rs, h3, rfl⟩ := fold_ok (spanItem_good hd) _ h1
  have hf := setAdd_fold (rs.map (·.1)) ⟨[], Errors.new⟩
  rw [h2] at hf
  have he : setMsgs [] (rs.map (·.1)) = [] := by simpa using hf.1.symm
  have hok := (setMsgs_eq_nil _ _).1 he
  -- forget the spans
  have h4 : ∃ rs', ReadsAll (recover (d.parse .unnamed)) l rs' none l' ∧
      rs'.map (·.1) = (rs.map (·.1)).map (·.1) := by
    have key : ∀ {s rs o s'}, Reads (spanItem (d.parse .unnamed)) s rs o s' →
        ∃ rs', Reads (recover (d.parse .unnamed)) s rs' o s' ∧
          rs'.map (·.1) = (rs.map (·.1)).map (·.1) := by
      have hi : ∀ {s b s'}, spanItem (d.parse .unnamed) s = (.ok b, s') →
          recover (d.parse .unnamed) s = (.ok b.1, s') := by
        intro s b s' h
        simp only [spanItem, recover] at h ⊢
        cases hp : d.parse .unnamed s with
        | mk r s1 =>
          rw [hp] at h
          cases r <;> simp at h <;> obtain ⟨rfl, rfl⟩ := h <;> rfl
      intro s rs o s' h
      induction h with
      | done h => exact ⟨[], .done h, rfl⟩
      | last a b c => exact ⟨_, .last a (hi b) c, rfl⟩
      | more a b c d _ ih =>
        obtain ⟨rs', i1, i2⟩ := ih
        exact ⟨_, .more a (hi b) c d i1, by simp [i2]⟩
      | failItem a b =>
        have := (spanItem_good hd)
        simp only [spanItem] at b
        split at b <;> simp at b
      | failSep a b c d => exact ⟨_, .failSep a (hi b) c d, rfl⟩
    clear hok he hf h1 h2 h
    generalize (none : Option SynErr) = o at h3
    induction h3 with
    | nil => exact ⟨[], .nil, rfl⟩
    | cons a _ ih =>
      obtain ⟨r1, i1, i2⟩ := key a
      obtain ⟨r2, j1, j2⟩ := ih
      exact ⟨r1 ++ r2, .cons i1 j1, by simp [i2, j2]⟩
    | fail a =>
      obtain ⟨r1, i1, i2⟩ := key a
      exact ⟨r1, .fail i1, i2⟩
  obtain ⟨rs1, h4, h5⟩ := h4
  obtain ⟨rs', h6, h7⟩ := h4.of_recover (item := d.parse .unnamed) (f := Except.ok)
    (fun s a s' h => by
      simp only [recover] at h
      split at h <;> simp at h
      rename_i h'; obtain ⟨rfl, rfl⟩ := h; exact h')
    (fun x hx => by
      have : x.1 ∈ (rs.map (·.1)).map (·.1) := by rw [← h5]; exact List.mem_map_of_mem hx
      obtain ⟨y, hy, hxy⟩ := List.mem_map.1 this
      rw [← hxy]; exact hok.1 y hy)
  have hv : (List.foldl setAdd ⟨[], Errors.new⟩ (rs.map (·.1))).val = rs'.map (·.1) := by
    rw [hf.2 he, ← h5, h7, okVals_map]; simp
  refine ⟨rs', h6, hv, ?_, h3.read⟩
  rw [hf.2 he]
  simpa using hok.2.1

/-- Non-trivial case: a repeated element. -/
example [Env] : ItemsAll (ElemSeg (boolDict.parse .unnamed))
    [⟨[.ident "true".toList 1, .punct ',' false 2, .ident "true".toList 3], 9, none⟩]
    [(.ok true, (Env.join 2 1).getD 1), (.ok true, (Env.join 9 3).getD 3)] :=
  .cons (bs := [_, _])
    (.cons (v := [.ident "true".toList 1]) ⟨_, _, rfl⟩ ⟨fun u => ⟨u, rfl⟩, rfl⟩
      (.last (by simp) ⟨fun u => ⟨u, rfl⟩, rfl⟩)) .nil

/-! ## C26 -/

/-- Skips an item. -/
def skipItem {β : Type} (b : β) : M Stream β := fun s => (.ok b, skipMetaItem s)

theorem skipItem_good {β : Type} (b : β) : Good (skipItem b) :=
  fun s => ⟨by simp [skipItem], skipMetaItem_adv s⟩

/-- The item reader of an `append` field. -/
def appendItem [Env] {α : Type} (names : List Str) (p : Str → Span → M Stream α) :
    M Stream (Option (Except SynErr α × Span)) :=
  keyed fun key sp => if key ∈ names then (spanItem (p key sp)).map some
    else skipItem none

theorem appendItem_good [Env] {α} {p : Str → Span → M Stream α} (hp : ∀ k sp, Good (p k sp))
    (names : List Str) : Good (appendItem names p) := by
  refine keyed_good fun key sp => ?_
  split
  · exact Good.map _ (spanItem_good (hp _ _))
  · exact skipItem_good _

theorem appendItem_seg [Env] {α} (p : Str → Span → M Stream α) (names : List Str) :
    SegSound (appendItem names p) (NamedSeg names p) := by
  intro v rest sc b hr hne hseg u
  cases hseg with
  | mine hk hm hx =>
    simp only [appendItem]
    rw [keyed_key _ hk hr]
    simp only [hm, if_true]
    rename_i segs sp vt x
    cases x with
    | ok a =>
      obtain ⟨u', h⟩ := hx u
      exact ⟨u', by simp only [M.map, spanItem, h, Res.map]; rfl⟩
    | error e =>
      obtain ⟨v', u', hv, h⟩ := hx u
      exact ⟨u', by
        simp only [M.map, spanItem, h, Res.map, skipMetaItem, skipToks_boundary hv hr]; rfl⟩
  | other hk hm hv =>
    simp only [appendItem]
    rw [keyed_key _ hk hr]
    simp only [hm, if_false]
    exact ⟨u, by simp only [skipItem, skipMetaItem, skipToks_boundary hv hr]⟩

/-- Ignores the items that are not collected. -/
def onSome {κ β : Type} (g : κ → β → κ) (k : κ) : Option β → κ
  | some x => g k x
  | none => k

theorem appendStep_eq [Env] {α γ : Type} (p : Str → Span → M Stream α) (names : List Str)
    (push : Acc γ → α → Stream → Stream → Acc γ) (add : Acc γ → Except SynErr α × Span → Acc γ)
    (h : ∀ key sp, stepPush (p key sp) push =
      foldStep (spanItem (p key sp)) (fun k b _ _ => add k b)) :
    (parseStruct fun key sp => if names.any (· == key) then stepPush (p key sp) push else stepSkip) =
      forStreams (itemLoop (foldStep (appendItem names p) (fun k b _ _ => onSome add k b))) := by
  rw [parseStruct_eq]
  congr 1
  funext n
  congr 1
  funext st
  obtain ⟨k, s⟩ := st
  rw [keyStep_eq]
  simp only [foldStep, appendItem, keyed]
  cases hp : parseAnyPath s with
  | mk r s1 =>
    cases r with
    | err e => rfl
    | panic => rfl
    | ok path =>
      simp only
      have hmem : names.any (· == keyString path.segs) = decide (keyString path.segs ∈ names) := by
        rw [Bool.eq_iff_iff]; simp
      rw [hmem]
      by_cases hm : keyString path.segs ∈ names
      · simp only [hm, decide_true, if_true]
        rw [h]
        simp only [foldStep, M.map]
        cases hsp : spanItem (p (keyString path.segs) path.span) s1 with
        | mk r2 s2 => cases r2 <;> rfl
      · simp [hm, stepSkip, skipItem, onSome]

theorem seqSpanStep_eq [Env] {α : Type} (item : M Stream α) :
    stepPush item pushBack = foldStep (spanItem item) (fun k b _ _ => seqAdd k b.1) := by
  funext st
  obtain ⟨acc, s⟩ := st
  simp only [stepPush, foldStep, spanItem]
  cases h : item s with
  | mk r s' => cases r <;> rfl

theorem foldl_some {κ β : Type} (g : κ → β → κ) (xs : List (Option β)) (k : κ) :
    xs.foldl (onSome g) k =
      (xs.filterMap id).foldl g k := by
  induction xs generalizing k with
  | nil => rfl
  | cons x xs ih => cases x <;> simp [ih, onSome]

/-- C26: an `append` sequence collects, in textual order over all streams, the values of exactly the
items whose key is one of its names; other items are ignored whatever their tokens; all errors of its
items are reported. -/
theorem c26_append_sequence [Env] {α : Type} (d : Dict α) (hd : ∀ n sp, Good (d.named n sp))
    (names : List Str) (l : List Stream) (rs : List (Option (Except SynErr α × Span)))
    (h : ItemsAll (NamedSeg names d.named) l rs) :
    ∃ r l', seqAppend d names l = (r, l') ∧ AllRead l' ∧
      Collects r (okVals ((rs.filterMap id).map (·.1))) (errMsgs ((rs.filterMap id).map (·.1))) := by
  obtain ⟨l', h1, h2⟩ := h.run (appendItem_good hd names) (appendItem_seg _ _)
    (onSome fun k (x : Except SynErr α × Span) => seqAdd k x.1) ⟨[], Errors.new⟩
  have h3 := foldl_some (fun k (x : Except SynErr α × Span) => seqAdd k x.1) rs ⟨[], Errors.new⟩
  rw [h3] at h1
  have hf := seqAdd_fold ((rs.filterMap id).map (·.1)) ⟨[], Errors.new⟩
  rw [List.foldl_map] at hf
  refine ⟨_, l', ?_, h2, intoResult_collects (by simpa using hf.2) (fun _ => by simpa using hf.1)⟩
  simp only [seqAppend]
  rw [appendStep_eq d.named names pushBack (fun k b => seqAdd k b.1) (fun _ _ => seqSpanStep_eq _)]
  exact runAccPush_ok_of h1

/-- C26 for sets: the same, with one "Duplicate key" message per repeated element. -/
theorem c26_append_set [Env] {α : Type} [DecidableEq α] (d : Dict α)
    (hd : ∀ n sp, Good (d.named n sp)) (names : List Str) (l : List Stream)
    (rs : List (Option (Except SynErr α × Span))) (h : ItemsAll (NamedSeg names d.named) l rs) :
    ∃ r l', setAppend d names l = (r, l') ∧ AllRead l' ∧
      Collects r (okVals ((rs.filterMap id).map (·.1))) (setMsgs [] (rs.filterMap id)) := by
  obtain ⟨l', h1, h2⟩ := h.run (appendItem_good hd names) (appendItem_seg _ _)
    (onSome setAdd) ⟨[], Errors.new⟩
  have h3 := foldl_some (setAdd (α := α)) rs ⟨[], Errors.new⟩
  rw [h3] at h1
  have hf := setAdd_fold (rs.filterMap id) ⟨[], Errors.new⟩
  refine ⟨_, l', ?_, h2, intoResult_collects (by simpa using hf.1) (fun h => by simpa using hf.2 h)⟩
  simp only [setAppend]
  rw [appendStep_eq d.named names setInsert setAdd (fun _ _ => setStep_eq _)]
  exact runAcc_ok_of h1

/-- Non-trivial case: `b = ), a = true, a` over two streams, collecting `a`. -/
example [Env] : ItemsAll (NamedSeg [['a']] boolDict.named)
    [⟨[.ident ['b'] 1, .punct '=' false 2, .punct ',' false 3,
       .ident ['a'] 4, .punct '=' false 5, .ident "true".toList 6], 9, none⟩,
     ⟨[.ident ['a'] 7], 8, none⟩]
    [none, some (.ok true, (Env.join 9 5).getD 5), some (.ok true, (Env.join 8 8).getD 8)] :=
  .cons (bs := [none, _])
    (.cons (v := [.ident ['b'] 1, .punct '=' false 2]) ⟨_, _, rfl⟩
      (.other (segs := [['b']]) (.mk (pt := [.ident ['b'] 1]) (.plain (.one _ _))
        (by rintro ⟨_, _, _, _, h⟩; simp at h)) (by simp [keyString])
        (by intro t ht; simp at ht; subst ht; rintro ⟨_, _, h⟩; simp at h))
      (.last (by simp) (.mine (segs := [['a']]) (vt := [.punct '=' false 5, .ident "true".toList 6])
        (x := .ok true)
        (.mk (pt := [.ident ['a'] 4]) (.plain (.one _ _)) (by rintro ⟨_, _, _, _, h⟩; simp at h))
        (by simp [keyString]) (fun u => ⟨u, rfl⟩))))
    (.cons (bs := [_])
      (.last (by simp) (.mine (segs := [['a']]) (vt := []) (x := .ok true)
        (.mk (pt := [.ident ['a'] 7]) (.plain (.one _ _)) (by rintro ⟨_, _, _, _, h⟩; simp at h))
        (by simp [keyString]) (fun u => ⟨u, rfl⟩))) .nil)

/-- Reads one item of an `append` field: the key, then the value if the key is one of the names, and
otherwise everything up to the next comma. -/
def ownItem [Env] {α : Type} (names : List Str) (p : Str → Span → M Stream α) :
    M Stream (Option α) :=
  keyed fun key sp => if key ∈ names then (p key sp).map some else skipItem none

/-- The value without its span. -/
def ownValue {α : Type} : Option (Except SynErr α × Span) → Option α
  | some (.ok a, _) => some a
  | _ => none

/-- Not a failure. -/
def NotError {α : Type} (x : Option (Except SynErr α × Span)) : Prop := ∀ y, x = some y → ∃ a, y.1 = .ok a

theorem appendItem_own [Env] {α : Type} (names : List Str) (p : Str → Span → M Stream α) (s s' : Stream)
    (b : Option (Except SynErr α × Span)) (hb : NotError b)
    (h : appendItem names p s = (.ok b, s')) : ownItem names p s = (.ok (ownValue b), s') := by
  simp only [appendItem, ownItem, keyed] at h ⊢
  cases hp : parseAnyPath s with
  | mk r s1 =>
    rw [hp] at h
    cases r with
    | err e => simp at h
    | panic => simp at h
    | ok path =>
      simp only at h ⊢
      by_cases hm : keyString path.segs ∈ names
      · simp only [hm, if_true, M.map, spanItem] at h ⊢
        cases hq : p (keyString path.segs) path.span s1 with
        | mk r2 s2 =>
          rw [hq] at h
          cases r2 with
          | ok a =>
            simp only [Res.map, Prod.mk.injEq, Res.ok.injEq] at h ⊢
            obtain ⟨rfl, rfl⟩ := h
            exact ⟨rfl, rfl⟩
          | err e =>
            simp only [Res.map, Prod.mk.injEq, Res.ok.injEq] at h
            obtain ⟨rfl, rfl⟩ := h
            obtain ⟨a, ha⟩ := hb _ rfl
            simp at ha
          | panic => simp [Res.map] at h
      · simp only [hm, if_false, skipItem, Prod.mk.injEq, Res.ok.injEq] at h ⊢
        obtain ⟨rfl, rfl⟩ := h
        exact ⟨rfl, rfl⟩

theorem filterMap_own {α : Type} (xs : List (Option (Except SynErr α × Span))) :
    okVals ((xs.filterMap id).map (·.1)) = (xs.map ownValue).filterMap id := by
  induction xs with
  | nil => rfl
  | cons x xs ih =>
    rcases x with _ | ⟨_ | a, sp⟩ <;> simp [ih, okVals, ownValue]

/-- C26, conversely: whenever an `append` sequence is returned, the streams are keyed items separated
by single commas and read to the end, every item with one of the names was read by the element parser
without error, and the elements are those values in order. -/
theorem c26_only_sequence [Env] {α : Type} (d : Dict α) (hd : ∀ n sp, Good (d.named n sp))
    (names : List Str) (l l' : List Stream) (vs : List α)
    (h : seqAppend d names l = (.ok vs, l')) :
    ∃ rs, ReadsAll (ownItem names d.named) l rs none l' ∧ vs = (rs.map (·.1)).filterMap id ∧
      AllRead l' := by
  simp only [seqAppend] at h
  rw [appendStep_eq d.named names pushBack (fun k b => seqAdd k b.1) (fun _ _ => seqSpanStep_eq _)] at h
  obtain ⟨acc, h1, h2, rfl⟩ := runAccPush_ok h
  obtain ⟨rs, h3, rfl⟩ := fold_ok (appendItem_good hd names) _ h1
  have hs := foldl_some (fun k (x : Except SynErr α × Span) => seqAdd k x.1) (rs.map (·.1))
    ⟨[], Errors.new⟩
  have hf := seqAdd_fold (((rs.map (·.1)).filterMap id).map (·.1)) ⟨[], Errors.new⟩
  rw [List.foldl_map] at hf
  rw [hs] at h2 ⊢
  rw [h2] at hf
  have he : errMsgs (((rs.map (·.1)).filterMap id).map (·.1)) = [] := by simpa using hf.2.symm
  have hok := (errMsgs_eq_nil _).1 he
  refine ⟨_, h3.transfer ownValue NotError (fun s b s' => appendItem_own names d.named s s' b) rfl ?_,
    ?_, h3.read⟩
  · intro x hx y hy
    exact hok y.1 (List.mem_map_of_mem (List.mem_filterMap.2 ⟨x.1, List.mem_map_of_mem hx, hy⟩))
  · rw [hf.1, filterMap_own]
    simp [List.map_map, Function.comp_def]

/-- C26 for sets, conversely: the same, and no element occurs twice. -/
theorem c26_only_set [Env] {α : Type} [DecidableEq α] (d : Dict α) (hd : ∀ n sp, Good (d.named n sp))
    (names : List Str) (l l' : List Stream) (vs : List α)
    (h : setAppend d names l = (.ok vs, l')) :
    ∃ rs, ReadsAll (ownItem names d.named) l rs none l' ∧ vs = (rs.map (·.1)).filterMap id ∧
      vs.Nodup ∧ AllRead l' := by
  simp only [setAppend] at h
  rw [appendStep_eq d.named names setInsert setAdd (fun _ _ => setStep_eq _)] at h
  obtain ⟨acc, h1, h2, rfl⟩ := runAcc_ok h
  obtain ⟨rs, h3, rfl⟩ := fold_ok (appendItem_good hd names) _ h1
  have hs := foldl_some (setAdd (α := α)) (rs.map (·.1)) ⟨[], Errors.new⟩
  have hf := setAdd_fold ((rs.map (·.1)).filterMap id) ⟨[], Errors.new⟩
  rw [hs] at h2 ⊢
  rw [h2] at hf
  have he : setMsgs [] ((rs.map (·.1)).filterMap id) = [] := by simpa using hf.1.symm
  have hok := (setMsgs_eq_nil _ _).1 he
  have hv : (List.foldl setAdd ⟨[], Errors.new⟩ ((rs.map (·.1)).filterMap id)).val =
      okVals (((rs.map (·.1)).filterMap id).map (·.1)) := by simpa using hf.2 (by simpa using he)
  refine ⟨_, h3.transfer ownValue NotError (fun s b s' => appendItem_own names d.named s s' b) rfl ?_,
    ?_, ?_, h3.read⟩
  · intro x hx y hy
    exact hok.1 y (List.mem_filterMap.2 ⟨x.1, List.mem_map_of_mem hx, hy⟩)
  · rw [hv, filterMap_own]
    simp [List.map_map, Function.comp_def]
  · rw [hv]
    simpa using hok.2.1

/-- Non-trivial case: `b = ), a = true, a` collecting `a`, and what follows a value must be a comma. -/
example [Env] : (∃ l', seqAppend boolDict [['a']]
      [⟨[.ident ['b'] 1, .punct '=' false 2, .punct ',' false 3, .ident ['a'] 4, .punct '=' false 5,
        .ident "true".toList 6, .punct ',' false 7, .ident ['a'] 8], 9, none⟩] = (.ok [true, true], l')) ∧
    ∃ e l', seqAppend boolDict [['a']]
      [⟨[.ident ['a'] 1, .punct '=' false 2, .ident "true".toList 3, .ident ['x'] 4], 9, none⟩] =
        (.err e, l') :=
  ⟨⟨_, rfl⟩, ⟨_, _, rfl⟩⟩

end Deluxe
