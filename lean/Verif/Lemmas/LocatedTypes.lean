import Verif.Lemmas.Located
import Verif.Model.With
/-!
# Messages point into the input: the provided types and the `with` modules
-/
namespace Deluxe
variable {P : Span → Prop}

theorem expectLit_loc {α : Type} (what : Str) (f : LitVal → Option α) : Loc P (expectLit what f) := by
  intro s hs
  have hr : ∀ l rest, parseLitToks s.toks = some (l, rest) → ∀ t ∈ rest, t ∈ s.toks := by
    intro l rest h t ht
    generalize s.toks = toks at h
    unfold parseLitToks at h
    split at h
    · cases h; simp [ht]
    · split at h
      · cases h; simp [ht]
      · split at h
        · cases h; simp [ht]
        · cases h
    · cases h; simp [ht]
    · cases h; simp [ht]
    · cases h
  simp only [expectLit]
  split
  · rename_i l rest h
    split
    · exact ⟨trivial, hs.rest (hr l rest h)⟩
    · exact ⟨hs.error _, hs.rest (hr l rest h)⟩
  · exact ⟨hs.error _, hs⟩

theorem parseIdentAny_loc : Loc P parseIdentAny := by
  intro s hs
  simp only [parseIdentAny]
  split
  · rename_i h
    exact ⟨trivial, hs.rest fun t ht => h ▸ List.mem_cons_of_mem _ ht⟩
  · exact ⟨hs.error _, hs⟩

section
variable [Env] [A : Area P]

theorem intDict_in {α : Type} (conv : Bool × Nat → Option α) : (intDict conv).In P := by
  refine Dict.mk'_in_parse fun m _ s hs => ?_
  obtain ⟨h1, h2⟩ := expectLit_loc (P := P) _ _ s hs
  cases h : parseLitInt s with
  | mk r s' =>
    rw [parseLitInt] at h
    rw [h] at h1 h2
    cases r with
    | ok n =>
      dsimp only
      split
      · exact ⟨trivial, h2⟩
      · exact ⟨SynErr.in_new _ hs.span, h2⟩
    | err e => exact ⟨h1, h2⟩
    | panic => exact ⟨trivial, h2⟩

theorem u8Dict_in : u8Dict.In P := by
  refine Dict.mk'_in_parse fun m _ s hs => ?_
  split
  · rename_i h
    exact ⟨trivial, hs.rest fun t ht => h ▸ List.mem_cons_of_mem _ ht⟩
  · rename_i n sp rest h
    have hr := hs.rest (toks := rest) fun t ht => h ▸ List.mem_cons_of_mem _ ht
    split
    · exact ⟨trivial, hr⟩
    · exact ⟨SynErr.in_new _ (hs.toks (.lit (.int n) sp) (h ▸ List.mem_cons_self)).span, hr⟩
  · rename_i b sp n sp' rest h
    have hr := hs.rest (toks := rest) fun t ht => by rw [h]; simp [ht]
    exact ⟨SynErr.in_new _ (hs.toks (.punct '-' b sp) (h ▸ List.mem_cons_self)).span, hr⟩
  · exact ⟨hs.error _, hs⟩

theorem boolDict_in : boolDict.In P :=
  Dict.mk'_in (fun _ _ => expectLit_loc _ _) (fun _ _ => trivial) fun _ _ => missing_in

theorem charDict_in : charDict.In P := Dict.mk'_in_parse fun _ _ => expectLit_loc _ _
theorem stringDict_in : stringDict.In P := Dict.mk'_in_parse fun _ _ => expectLit_loc _ _
theorem identDict_in : identDict.In P := Dict.mk'_in_parse fun _ _ => parseIdentAny_loc
theorem synDict_in {α : Type} {p : M Stream α} (h : Loc P p) : (synDict p).In P := Dict.mk'_in_parse fun _ _ => h

theorem synParenDict_in {α : Type} {p : M Stream α} (h : Loc P p) : (synParenDict p).In P := by
  refine Dict.mk'_in_parse fun m _ => ?_
  cases m with
  | unnamed => exact h
  | named sp =>
    exact withContent_loc .paren (Keeps.bind h fun _ _ => Keeps.bind parseNothing_loc fun _ _ => Keeps.pure trivial)

theorem tokenTreeDict_in : tokenTreeDict.In P := by
  refine Dict.mk'_in_parse fun m _ s hs => ?_
  split
  · rename_i h
    exact ⟨trivial, hs.rest fun t ht => h ▸ List.mem_cons_of_mem _ ht⟩
  · exact ⟨SynErr.in_new _ hs.scope, hs⟩

theorem literalDict_in : literalDict.In P := by
  refine Dict.mk'_in_parse fun m _ s hs => ?_
  split
  · rename_i h
    exact ⟨trivial, hs.rest fun t ht => h ▸ List.mem_cons_of_mem _ ht⟩
  · exact ⟨SynErr.in_new _ hs.span, hs⟩

theorem punctDict_in : punctDict.In P := by
  refine Dict.mk'_in_parse fun m _ s hs => ?_
  split
  · rename_i c j sp rest h
    split
    · exact ⟨SynErr.in_new _ (hs.toks (.punct c j sp) (h ▸ List.mem_cons_self)).span, hs⟩
    · exact ⟨trivial, hs.rest fun t ht => h ▸ List.mem_cons_of_mem _ ht⟩
  · exact ⟨SynErr.in_new _ hs.span, hs⟩

theorem groupDict_in : groupDict.In P := by
  refine Dict.mk'_in_parse fun m _ s hs => ?_
  split
  · rename_i h
    exact ⟨trivial, hs.rest fun t ht => h ▸ List.mem_cons_of_mem _ ht⟩
  · exact ⟨SynErr.in_new _ hs.span, hs⟩

omit [Env] A in
theorem unitDict_in : unitDict.In P :=
  Dict.mk'_in_all (fun _ _ => withContent_loc .paren parseNothing_loc) (fun _ _ _ h => ⟨trivial, h⟩)
    (fun _ _ => trivial) fun _ _ => missing_in

omit [Env] A in
theorem takeToks_mem (toks : List Tok) : ∀ t ∈ (takeToks toks).2, t ∈ toks := by
  induction toks with
  | nil => intro t ht; exact ht
  | cons x rest ih =>
    intro t ht
    simp only [takeToks] at ht
    split at ht
    · exact ht
    · exact List.mem_cons_of_mem _ (ih t ht)

omit [Env] A in
theorem Mode.In.toSpan {m : Mode} (h : m.In P) {s : Stream} (hs : s.In P) : P (m.toSpan s) := by
  cases m with
  | named sp => exact h sp rfl
  | unnamed => exact hs.span

omit [Env] A in
theorem tokenStreamParse_loc (m : Mode) (hm : m.In P) : Loc P (tokenStreamParse m) := by
  intro s hs
  simp only [tokenStreamParse]
  split
  · exact ⟨SynErr.in_new _ hs.span, hs⟩
  · split
    · exact ⟨SynErr.in_new _ (hm.toSpan hs), hs⟩
    · exact ⟨trivial, hs.rest (takeToks_mem _)⟩

theorem tokenStreamDict_in : tokenStreamDict.In P :=
  Dict.mk'_in tokenStreamParse_loc (fun _ _ => trivial) fun _ _ _ => trivial

omit [Env] A in
theorem tokenStreamLoop_keeps (n : Nat) :
    Keeps P (LoopIn P fun _ : List Tok => True) (fun _ => True) (tokenStreamLoop n) := by
  induction n with
  | zero => exact Keeps.panic
  | succ n ih =>
    intro st hs
    obtain ⟨tts, s⟩ := st
    obtain ⟨h1, h2⟩ := tokenStreamParse_loc .unnamed Mode.in_unnamed s hs.2
    simp only [tokenStreamLoop]
    split
    · exact ⟨trivial, hs⟩
    · split
      · rename_i heq; rw [heq] at h2; exact ih _ ⟨trivial, h2⟩
      · rename_i heq; rw [heq] at h1 h2; exact ⟨h1, trivial, h2⟩
      · rename_i heq; rw [heq] at h2; exact ⟨trivial, trivial, h2⟩

omit [Env] A in
theorem tokenStreamFlat_in : tokenStreamFlat.In P := by
  refine ⟨fun _ _ _ l hl => ?_⟩
  obtain ⟨h1, h2⟩ := forStreams_keeps tokenStreamLoop_keeps ([], l) ⟨trivial, hl⟩
  simp only [tokenStreamFlat]
  split
  · rename_i heq; rw [heq] at h2; exact ⟨trivial, h2.2⟩
  · rename_i heq; rw [heq] at h1 h2; exact ⟨h1, h2.2⟩
  · rename_i heq; rw [heq] at h2; exact ⟨trivial, h2.2⟩

theorem optionDict_in {α : Type} {d : Dict α} (h : d.In P) : (optionDict d).In P := by
  refine Dict.mk'_in (fun m hm => ?_) (fun sp hs => (h.flag sp hs).map _ fun _ _ => trivial) fun _ _ _ => trivial
  cases m with
  | named sp => exact (h.parse _ hm).map some
  | unnamed =>
    intro s hs
    dsimp only
    split
    · exact (parseDelimitedMetaItem_loc .paren .unnamed (h.inline _ hm)).map some _ hs.tail
    · split
      · exact ⟨trivial, hs.tail⟩
      · exact ⟨hs.error _, hs⟩

theorem wrapperDict_in {α : Type} {d : Dict α} (h : d.In P) : (wrapperDict d).In P :=
  Dict.mk'_in h.parse h.flag fun _ _ => missing_in

omit A in
theorem spannedDict_in {α : Type} {d : Dict α} (h : d.In P) : (spannedDict d).In P :=
  ⟨fun m hm s hs => ⟨(h.parse m hm s hs).1.map _ fun _ _ => trivial, (h.parse m hm s hs).2⟩,
    fun m hm l hl => ⟨(h.inline m hm l hl).1.map _ fun _ _ => trivial, (h.inline m hm l hl).2⟩,
    fun sp hs => (h.flag sp hs).map _ fun _ _ => trivial,
    fun n sp hsp s hs => ⟨(h.named n sp hsp s hs).1.map _ fun _ _ => trivial, (h.named n sp hsp s hs).2⟩,
    fun _ _ hs => SynErr.in_new _ hs⟩

omit A in
theorem spannedFlat_loc {α : Type} {m : M (List Stream) α} (h : LocL P m) : LocL P (spannedFlat m) :=
  fun l hl => ⟨(h l hl).1.map _ fun _ _ => trivial, (h l hl).2⟩

theorem flagDict_in : flagDict.In P := by
  refine ⟨fun _ _ s hs => ⟨SynErr.in_new _ (inputsSpan_in (StreamsIn.nil.cons hs)), hs⟩,
    fun _ _ l hl => ⟨SynErr.in_new _ (inputsSpan_in hl), hl⟩, fun _ _ => trivial, fun _ sp hsp s hs => ?_,
    fun _ _ _ => trivial⟩
  simp only [flagDict]
  split
  · exact ⟨trivial, hs⟩
  · exact ⟨SynErr.in_new _ hs.span, hs⟩

/-! ## Arrays and tuples -/

omit [Env] A in
theorem stepHead_keeps {κ : Type} {K : κ → Prop} {m : M (κ × Stream) Unit}
    (h : Keeps P (LoopIn P K) (fun _ => True) m) : Keeps P (LoopsIn P K) (fun _ => True) (stepHead m) := by
  intro st hs
  obtain ⟨k, l⟩ := st
  cases l with
  | nil => exact ⟨trivial, hs⟩
  | cons s rest =>
    obtain ⟨h1, h2, h3⟩ := h (k, s) ⟨hs.1, hs.2.head⟩
    exact ⟨h1, h2, hs.2.tail.cons h3⟩

omit [Env] A in
theorem arrayStep_keeps {α : Type} (n : Nat) {item : M Stream α} (hi : Loc P item) :
    Keeps P (LoopIn P (AccIn P)) (fun _ => True) (arrayStep n item) := by
  intro st hs
  obtain ⟨acc, s⟩ := st
  obtain ⟨h1, h2⟩ := hi s hs.2
  simp only [arrayStep]
  split
  · rename_i heq
    rw [heq] at h2
    split
    · exact ⟨trivial, hs.1, h2⟩
    · exact ⟨trivial, hs.1, h2⟩
  · rename_i heq; rw [heq] at h1 h2; exact ⟨trivial, Errors.In.pushSyn hs.1 h1, h2.skip⟩
  · rename_i heq; rw [heq] at h2; exact ⟨trivial, hs.1, h2⟩

theorem arrayFlat_in {α : Type} (n : Nat) {d : Dict α} (h : d.In P) : (arrayFlat n d).In P := by
  refine ⟨fun _ index _ l hl => ?_⟩
  obtain ⟨h1, h2⟩ := parseTupleStruct_located n (fun _ => stepHead_keeps (arrayStep_keeps n (h.parse _ Mode.in_unnamed)))
    (⟨([], 0), Errors.new⟩, l) ⟨Errors.in_new, hl⟩
  simp only [arrayFlat]
  generalize hX : parseTupleStruct (fun _ => stepHead (arrayStep n (d.parse .unnamed))) n
    ((⟨([], 0), Errors.new⟩ : Acc (List α × Nat)), l) = X at h1 h2
  obtain ⟨r, acc, l1⟩ := X
  have key : ∀ errs : Errors, errs.In P → Res.In P (fun _ : List α => True) (match
      (if acc.val.1.length + acc.val.2 ≠ n then errs.push (inputsSpan l1)
        (.arrayLen index n (acc.val.1.length + acc.val.2)) else errs).check with
      | .ok () => ((if acc.val.1.length = n then .ok acc.val.1 else .panic), l1)
      | .err e => (.err e, l1)
      | .panic => (.panic, l1) : Res (List α) × List Stream).1 ∧ StreamsIn P (match
      (if acc.val.1.length + acc.val.2 ≠ n then errs.push (inputsSpan l1)
        (.arrayLen index n (acc.val.1.length + acc.val.2)) else errs).check with
      | .ok () => ((if acc.val.1.length = n then .ok acc.val.1 else .panic), l1)
      | .err e => (.err e, l1)
      | .panic => (.panic, l1) : Res (List α) × List Stream).2 := by
    intro errs herrs
    have hc : (if acc.val.1.length + acc.val.2 ≠ n then errs.push (inputsSpan l1)
        (.arrayLen index n (acc.val.1.length + acc.val.2)) else errs).In P := by
      split
      · exact herrs.push _ (inputsSpan_in h2.2)
      · exact herrs
    have hc := hc.check
    split
    · refine ⟨?_, h2.2⟩
      dsimp only
      split <;> trivial
    · rename_i heq; rw [heq] at hc; exact ⟨hc, h2.2⟩
    · exact ⟨trivial, h2.2⟩
  cases r with
  | panic => exact ⟨trivial, h2.2⟩
  | ok a => exact key _ h2.1
  | err e => exact key _ (Errors.In.pushSyn h2.1 h1)

theorem arrayDict_in {α : Type} (n : Nat) {d : Dict α} (h : d.In P) : (arrayDict n d).In P :=
  Dict.mk'_in_all (fun _ _ => parseDelimitedMetaItem_loc _ _ ((arrayFlat_in n h).parse _ _ Mode.in_unnamed))
    (fun m hm => (arrayFlat_in n h).parse m 0 hm) (fun _ => flagDisallowed_in) (fun _ _ => missing_in)

omit [Env] A in
theorem parseUnnamedItemWith_in {α : Type} {func : M Stream α} (hf : Loc P func) (st : FieldStatus α)
    {errors : Errors} (he : errors.In P) {s : Stream} (hs : s.In P) :
    (st.parseUnnamedItemWith func errors s).1.In P (fun _ => True) ∧
      (st.parseUnnamedItemWith func errors s).2.2.1.In P ∧ (st.parseUnnamedItemWith func errors s).2.2.2.In P := by
  obtain ⟨h1, h2⟩ := hf s hs
  simp only [FieldStatus.parseUnnamedItemWith]
  split
  · rename_i heq; rw [heq] at h2; exact ⟨trivial, he, h2⟩
  · rename_i heq; rw [heq] at h1 h2; exact ⟨trivial, he.pushSyn h1, h2.skip⟩
  · rename_i heq; rw [heq] at h2; exact ⟨trivial, he, h2⟩

omit [Env] A in
theorem parseNamedItemWith_in {α : Type} {func : M Stream α} (hf : Loc P func) (name : Str) {sp : Span} (hsp : P sp)
    (st : FieldStatus α) {errors : Errors} (he : errors.In P) {s : Stream} (hs : s.In P) :
    (st.parseNamedItemWith func name sp errors s).1.In P (fun _ => True) ∧
      (st.parseNamedItemWith func name sp errors s).2.2.1.In P ∧
      (st.parseNamedItemWith func name sp errors s).2.2.2.In P := by
  obtain ⟨h1, h2⟩ := hf s hs
  have he' : (if st.isNone then errors else errors.push sp (.duplicateAttr name)).In P := by
    split
    · exact he
    · exact he.push _ hsp
  simp only [FieldStatus.parseNamedItemWith]
  generalize (if st.isNone = true then errors else errors.push sp (.duplicateAttr name)) = errors' at he'
  split
  · rename_i heq; rw [heq] at h2; exact ⟨trivial, he', h2⟩
  · rename_i heq; rw [heq] at h1 h2; exact ⟨trivial, he'.pushSyn h1, h2.skip⟩
  · rename_i heq; rw [heq] at h2; exact ⟨trivial, he', h2⟩

omit [Env] A in
theorem tupleStep_keeps {α : Type} {items : List (M Stream α)} (hi : ∀ m ∈ items, Loc P m) (i : Nat) :
    Keeps P (LoopIn P (AccIn P)) (fun _ => True) (tupleStep items i) := by
  intro st hs
  obtain ⟨acc, s⟩ := st
  simp only [tupleStep]
  split
  · rename_i item st h1 h2
    obtain ⟨g1, g2, g3⟩ := parseUnnamedItemWith_in (hi item (List.mem_of_getElem? h1)) st hs.1 hs.2
    exact ⟨g1, g2, g3⟩
  · exact ⟨trivial, hs⟩

omit [Env] A in
theorem unwrapAll_in {α : Type} (l : List (FieldStatus α)) : (unwrapAll l).In P fun _ => True := by
  induction l with
  | nil => trivial
  | cons st rest ih =>
    simp only [unwrapAll]
    split
    · exact ih.map _ fun _ _ => trivial
    · rename_i e h
      cases st <;> simp [FieldStatus.unwrap] at h
    · trivial

theorem tupleFlat_in {α : Type} {ds : List (Dict α)} (h : ∀ d ∈ ds, d.In P) : (tupleFlat ds).In P := by
  refine ⟨fun _ index _ l hl => ?_⟩
  have hi : ∀ m ∈ ds.map (·.parse .unnamed), Loc P m := by
    intro m hm
    obtain ⟨d, hd, rfl⟩ := List.mem_map.1 hm
    exact (h d hd).parse _ Mode.in_unnamed
  obtain ⟨h1, h2⟩ := parseTupleStruct_located ds.length (fun i => stepHead_keeps (tupleStep_keeps hi i))
    (⟨List.replicate ds.length .none, Errors.new⟩, l) ⟨Errors.in_new, hl⟩
  simp only [tupleFlat]
  generalize hX : parseTupleStruct (fun i => stepHead (tupleStep (ds.map (·.parse .unnamed)) i)) ds.length
    ((⟨List.replicate ds.length .none, Errors.new⟩ : Acc (List (FieldStatus α))), l) = X at h1 h2
  obtain ⟨r, acc, l1⟩ := X
  have key : ∀ (errs : Errors) (n : Nat), errs.In P → Res.In P (fun _ : List α => True) (match firstMissing acc.val 0 with
      | some i => ((errs.push (inputsSpan l1) (.tupleLen n i)).bail, l1)
      | none =>
        match errs.check with
        | .ok () => (unwrapAll acc.val, l1)
        | .err e => (.err e, l1)
        | .panic => (.panic, l1) : Res (List α) × List Stream).1 ∧ StreamsIn P (match firstMissing acc.val 0 with
      | some i => ((errs.push (inputsSpan l1) (.tupleLen n i)).bail, l1)
      | none =>
        match errs.check with
        | .ok () => (unwrapAll acc.val, l1)
        | .err e => (.err e, l1)
        | .panic => (.panic, l1) : Res (List α) × List Stream).2 := by
    intro errs n herrs
    split
    · exact ⟨(herrs.push _ (inputsSpan_in h2.2)).bail, h2.2⟩
    · have hc := herrs.check
      split
      · exact ⟨unwrapAll_in _, h2.2⟩
      · rename_i heq; rw [heq] at hc; exact ⟨hc, h2.2⟩
      · exact ⟨trivial, h2.2⟩
  cases r with
  | panic => exact ⟨trivial, h2.2⟩
  | ok a => exact key _ _ h2.1
  | err e => exact key _ _ (Errors.In.pushSyn h2.1 h1)

theorem tupleDict_in {α : Type} {ds : List (Dict α)} (h : ∀ d ∈ ds, d.In P) : (tupleDict ds).In P :=
  Dict.mk'_in_all (fun _ _ => parseDelimitedMetaItem_loc _ _ ((tupleFlat_in h).parse _ _ Mode.in_unnamed))
    (fun m hm => (tupleFlat_in h).parse m 0 hm) (fun _ => flagDisallowed_in) (fun _ _ => missing_in)

/-! ## Collections -/

omit [Env] A in
theorem pushBack_in {α : Type} (acc : Acc (List α)) (a : α) (s s' : Stream) (h : AccIn P acc) (_ : s.In P)
    (_ : s'.In P) : AccIn P (pushBack acc a s s') := h

theorem joinSpan_in {a b : Span} (ha : P a) (hb : P b) : P ((Env.join a b).getD b) := by
  cases h : Env.join a b with
  | none => exact hb
  | some c => exact A.join ha hb h

theorem setInsert_in {α : Type} [DecidableEq α] (acc : Acc (List α)) (a : α) (s s' : Stream) (h : AccIn P acc)
    (hs : s.In P) (hs' : s'.In P) : AccIn P (setInsert acc a s s') := by
  simp only [setInsert]
  split
  · exact Errors.In.push h _ (joinSpan_in hs'.span hs.span)
  · exact h

omit [Env] A in
theorem stepSkip_keeps {κ : Type} {K : κ → Prop} :
    Keeps P (LoopIn P K) (fun _ => True) (stepSkip : M (κ × Stream) Unit) := fun _ hs => ⟨trivial, hs.1, hs.2.skip⟩

omit [Env] A in
theorem seqFlat_in {α : Type} {d : Dict α} (h : d.In P) : (seqFlat d).In P :=
  ⟨fun _ _ _ => runAcc_loc _ (forStreams_keeps fun n =>
    itemLoop_keeps (stepPush_keeps (h.parse _ Mode.in_unnamed) pushBack_in) n)⟩

omit [Env] A in
theorem seqDict_in {α : Type} {d : Dict α} (h : d.In P) : (seqDict d).In P :=
  Dict.mk'_in_all (fun _ _ => parseDelimitedMetaItem_loc _ _ ((seqFlat_in h).parse _ _ Mode.in_unnamed))
    (fun m hm => (seqFlat_in h).parse m 0 hm) (fun _ => flagDisallowed_in) (fun _ _ => missing_in)

theorem seqAppend_loc {α : Type} {d : Dict α} (h : d.In P) (names : List Str) : LocL P (seqAppend d names) := by
  refine runAccPush_loc _ (parseStruct_keeps fun p sp hsp => ?_)
  split
  · exact stepPush_keeps (h.named p sp hsp) pushBack_in
  · exact stepSkip_keeps

theorem setFlat_in {α : Type} [DecidableEq α] {d : Dict α} (h : d.In P) : (setFlat d).In P :=
  ⟨fun _ _ _ => runAcc_loc _ (forStreams_keeps fun n =>
    itemLoop_keeps (stepPush_keeps (h.parse _ Mode.in_unnamed) setInsert_in) n)⟩

theorem setDict_in {α : Type} [DecidableEq α] {d : Dict α} (h : d.In P) : (setDict d).In P :=
  Dict.mk'_in_all (fun _ _ => parseDelimitedMetaItem_loc _ _ ((setFlat_in h).parse _ _ Mode.in_unnamed))
    (fun m hm => (setFlat_in h).parse m 0 hm) (fun _ => flagDisallowed_in) (fun _ _ => missing_in)

theorem setAppend_loc {α : Type} [DecidableEq α] {d : Dict α} (h : d.In P) (names : List Str) :
    LocL P (setAppend d names) := by
  refine runAcc_loc _ (parseStruct_keeps fun p sp hsp => ?_)
  split
  · exact stepPush_keeps (h.named p sp hsp) setInsert_in
  · exact stepSkip_keeps

section
variable {κ ν : Type} [DecidableEq κ] {kd : Dict κ} (keyStr : κ → Str) {vd : Dict ν}

theorem mapStep_keeps (hk : kd.In P) (hv : vd.In P) :
    Keeps P (LoopIn P (AccIn P)) (fun _ => True) (mapStep kd keyStr vd) := by
  intro st hs
  obtain ⟨acc, s⟩ := st
  obtain ⟨h1, h2⟩ := hk.parse _ Mode.in_unnamed s hs.2
  simp only [mapStep]
  split
  · rename_i key s1 heq
    rw [heq] at h2
    refine stepPush_keeps (hv.named _ _ hs.2.span) (fun acc v _ _ ha _ _ => ?_) (acc, s1) ⟨hs.1, h2⟩
    show Errors.In P (if _ then _ else _)
    split
    · exact Errors.In.push ha _ (joinSpan_in h2.span hs.2.span)
    · exact ha
  · rename_i heq; rw [heq] at h1 h2; exact ⟨h1, hs.1, h2⟩
  · rename_i heq; rw [heq] at h2; exact ⟨trivial, hs.1, h2⟩

theorem mapFlat_in (hk : kd.In P) (hv : vd.In P) : (mapFlat kd keyStr vd).In P :=
  ⟨fun _ _ _ => runAcc_loc _ (forStreams_keeps fun n => itemLoop_keeps (mapStep_keeps keyStr hk hv) n)⟩

theorem mapDict_in (hk : kd.In P) (hv : vd.In P) : (mapDict kd keyStr vd).In P :=
  Dict.mk'_in_all (fun m hm => parseDelimitedMetaItem_loc _ m ((mapFlat_in keyStr hk hv).parse _ _ hm))
    (fun m hm => (mapFlat_in keyStr hk hv).parse m 0 hm) (fun _ => flagDisallowed_in) (fun _ _ => missing_in)

theorem restStep_keeps (hk : kd.In P) (hv : vd.In P) (ex : List Str) :
    Keeps P (LoopIn P (AccIn P)) (fun _ => True) (restStep kd keyStr vd ex) := by
  intro st hs
  obtain ⟨acc, s⟩ := st
  obtain ⟨h1, h2⟩ := hk.parse _ Mode.in_unnamed s hs.2
  simp only [restStep]
  split
  · rename_i key s1 heq
    rw [heq] at h2
    obtain ⟨g1, g2⟩ := hv.named (keyStr key) s.span hs.2.span s1 h2
    split
    · exact ⟨trivial, hs.1, h2.skip⟩
    · split
      · rename_i heq2
        rw [heq2] at g2
        refine ⟨trivial, ?_, g2⟩
        show Errors.In P (if _ then _ else _)
        split
        · exact Errors.In.push hs.1 _ (joinSpan_in h2.span hs.2.span)
        · exact hs.1
      · rename_i heq2; rw [heq2] at g1 g2; exact ⟨trivial, Errors.In.pushSyn hs.1 g1, g2⟩
      · rename_i heq2; rw [heq2] at g2; exact ⟨trivial, hs.1, g2⟩
  · rename_i heq; rw [heq] at h1 h2; exact ⟨h1, hs.1, h2⟩
  · rename_i heq; rw [heq] at h2; exact ⟨trivial, hs.1, h2⟩

theorem mapRest_loc (hk : kd.In P) (hv : vd.In P) (ex : List Str) : LocL P (mapRest kd keyStr vd ex) :=
  runAcc_loc _ (forStreams_keeps fun n => itemLoop_keeps (restStep_keeps keyStr hk hv ex) n)

end

omit [Env] A in
theorem punctSkip_loc (peekP : Stream → Bool) {parseP : M Stream Unit} (hp : Loc P parseP) (toks : List Tok)
    (s : Stream) (hs : s.In P) (ht : ∀ t ∈ toks, t ∈ s.toks) :
    (punctSkip peekP parseP toks s).1.In P (fun _ => True) ∧ (punctSkip peekP parseP toks s).2.In P := by
  induction toks generalizing s with
  | nil => exact ⟨trivial, hs⟩
  | cons x rest ih =>
    simp only [punctSkip]
    split
    · exact hp s hs
    · exact ih _ (hs.rest fun t h => ht t (List.mem_cons_of_mem _ h)) fun t h => h

omit [Env] A in
theorem punctLoop_keeps {α : Type} {item : M Stream α} (hi : Loc P item) (peekP : Stream → Bool)
    {parseP : M Stream Unit} (hp : Loc P parseP) (n : Nat) :
    Keeps P (LoopIn P (AccIn P)) (fun _ => True) (punctLoop item peekP parseP n) := by
  induction n with
  | zero => exact Keeps.panic
  | succ n ih =>
    intro st hs
    obtain ⟨acc, s⟩ := st
    obtain ⟨h1, h2⟩ := hi s hs.2
    simp only [punctLoop]
    split
    · exact ⟨trivial, hs⟩
    · split
      · rename_i v s' heq
        rw [heq] at h2
        obtain ⟨g1, g2⟩ := hp s' h2
        split
        · exact ih _ ⟨hs.1, h2⟩
        · split
          · rename_i heq2; rw [heq2] at g2; exact ⟨trivial, hs.1, g2⟩
          · rename_i heq2; rw [heq2] at g1 g2; exact ih _ ⟨Errors.In.pushSyn hs.1 g1, g2⟩
          · rename_i heq2; rw [heq2] at g2; exact ⟨trivial, hs.1, g2⟩
      · rename_i e s' heq
        rw [heq] at h1 h2
        have ha : AccIn P { acc with errs := acc.errs.pushSyn e } := Errors.In.pushSyn hs.1 h1
        obtain ⟨g1, g2⟩ := punctSkip_loc peekP hp s'.toks s' h2 fun t h => h
        split
        · rename_i heq2; rw [heq2] at g2; exact ih _ ⟨ha, g2⟩
        · rename_i heq2; rw [heq2] at g1 g2; exact ⟨g1, ha, g2⟩
        · rename_i heq2; rw [heq2] at g2; exact ⟨trivial, ha, g2⟩
      · rename_i heq; rw [heq] at h2; exact ⟨trivial, hs.1, h2⟩

omit [Env] A in
theorem punctFlat_in {α : Type} {d : Dict α} (h : d.In P) (peekP : Stream → Bool) {parseP : M Stream Unit}
    (hp : Loc P parseP) : (punctFlat d peekP parseP).In P :=
  ⟨fun _ _ _ => runAcc_loc _ (forStreams_keeps fun n => punctLoop_keeps (h.parse _ Mode.in_unnamed) peekP hp n)⟩

omit [Env] A in
theorem punctuatedDict_in {α : Type} {d : Dict α} (h : d.In P) (peekP : Stream → Bool) {parseP : M Stream Unit}
    (hp : Loc P parseP) : (punctuatedDict d peekP parseP).In P :=
  Dict.mk'_in_all (fun _ _ => parseDelimitedMetaItem_loc _ _ ((punctFlat_in h peekP hp).parse _ _ Mode.in_unnamed))
    (fun m hm => (punctFlat_in h peekP hp).parse m 0 hm) (fun _ => flagDisallowed_in) (fun _ _ => missing_in)

/-! ## `with` modules -/

omit [Env] A in
theorem withModule_in {α : Type} {parse : Mode → M Stream α} {inline : Mode → M (List Stream) α}
    {flag : Span → Res α} {missing : Str → Span → Res α} (h1 : ∀ m : Mode, m.In P → Loc P (parse m))
    (h2 : ∀ m : Mode, m.In P → LocL P (inline m)) (h3 : ∀ sp, P sp → (flag sp).In P fun _ => True)
    (h4 : ∀ n sp, P sp → (missing n sp).In P fun _ => True) : (withModule parse inline flag missing).In P :=
  ⟨h1, h2, h3, fun _ sp hs => parseNamedWith_loc (h1 _ (Mode.in_named hs)) (h2 _ (Mode.in_named hs)) (h3 sp hs), h4⟩

theorem withModule_first {α : Type} {parse : Mode → M Stream α}
    {flag : Span → Res α} {missing : Str → Span → Res α} (h1 : ∀ m : Mode, m.In P → Loc P (parse m))
    (h3 : ∀ sp, P sp → (flag sp).In P fun _ => True) (h4 : ∀ n sp, P sp → (missing n sp).In P fun _ => True) :
    (withModule parse (parseFirst parse) flag missing).In P :=
  withModule_in h1 (fun m hm => parseFirst_loc m hm (h1 m hm)) h3 h4

omit [Env] A in
theorem fromStrParse_loc {α : Type} (conv : Str → Except Str α) (m : Mode) : Loc P (fromStrParse conv m) := by
  intro s hs
  obtain ⟨h1, h2⟩ := expectLit_loc (P := P) _ _ s hs
  simp only [fromStrParse]
  cases h : parseLitStr s with
  | mk r s' =>
    rw [parseLitStr] at h
    rw [h] at h1 h2
    cases r with
    | ok n =>
      dsimp only
      split
      · exact ⟨trivial, h2⟩
      · exact ⟨SynErr.in_new _ hs.span, h2⟩
    | err e => exact ⟨h1, h2⟩
    | panic => exact ⟨trivial, h2⟩

theorem fromStrDict_in {α : Type} (conv : Str → Except Str α) : (fromStrDict conv).In P :=
  withModule_first (fun m _ => fromStrParse_loc conv m) (fun _ => flagDisallowed_in) (fun _ _ => missing_in)

theorem fromStrDefaultDict_in {α : Type} (conv : Str → Except Str α) (x : α) : (fromStrDefaultDict conv x).In P :=
  withModule_first (fun m _ => fromStrParse_loc conv m) (fun _ _ => trivial) (fun _ _ _ => trivial)

theorem modPathDict_in {α : Type} {p : M Stream α} (h : Loc P p) : (modPathDict p).In P :=
  withModule_first (fun _ _ => h) (fun _ => flagDisallowed_in) (fun _ _ => missing_in)

theorem anyPathDict_in : anyPathDict.In P :=
  withModule_first (fun _ _ => parseAnyPath_keeps.mono fun _ _ => trivial) (fun _ => flagDisallowed_in) (fun _ _ => missing_in)

omit [Env] A in
/-- Whatever the parser says of the quoted text, the message is at the literal. -/
theorem quotedParse_loc {α : Type} (lex : Str → Except SynErr (List Tok)) (f : M Stream α) :
    Loc P (quotedParse lex f) := by
  intro s hs
  obtain ⟨h1, h2⟩ := expectLit_loc (P := P) _ _ s hs
  simp only [quotedParse]
  cases h : parseLitStr s with
  | mk r s' =>
    rw [parseLitStr] at h
    rw [h] at h1 h2
    cases r with
    | ok n =>
      dsimp only
      cases hp : parseStr lex f n with
      | ok a => exact ⟨trivial, h2⟩
      | panic => exact ⟨trivial, h2⟩
      | err e =>
        refine ⟨fun m hm => ?_, h2⟩
        simp only [SynErr.moveTo, SynErr.toList, List.mem_cons, List.mem_map] at hm
        rcases hm with rfl | ⟨x, _, rfl⟩ <;> exact hs.span
    | err e => exact ⟨h1, h2⟩
    | panic => exact ⟨trivial, h2⟩

theorem quotedDict_in {α : Type} (lex : Str → Except SynErr (List Tok)) {d : Dict α} (h : d.In P) :
    (quotedDict lex d).In P := withModule_first (fun _ _ => quotedParse_loc lex _) h.flag h.missing

theorem maybeQuotedDict_in {α : Type} (lex : Str → Except SynErr (List Tok)) {d : Dict α} (h : d.In P) :
    (maybeQuotedDict lex d).In P := by
  refine withModule_first (fun m hm s hs => ?_) h.flag h.missing
  simp only [maybeQuotedParse]
  split
  · exact quotedParse_loc lex _ s hs
  · exact h.parse m hm s hs

theorem withSynDict_in {α : Type} {p : M Stream α} (h : Loc P p) : (withSynDict p).In P :=
  withModule_first (fun _ _ => h) (fun _ hs => parseEmpty_in hs h) (fun _ _ => missing_in)

theorem synQuotedDict_in {α : Type} (lex : Str → Except SynErr (List Tok)) {p : M Stream α} (h : Loc P p) :
    (synQuotedDict lex p).In P :=
  withModule_first (fun _ _ => quotedParse_loc lex _) (fun _ hs => parseEmpty_in hs h) (fun _ _ => missing_in)

omit [Env] A in
theorem identityDict_in {α : Type} {d : Dict α} (h : d.In P) : (identityDict d).In P :=
  withModule_in h.parse h.inline h.flag h.missing

theorem innerDict_in {α : Type} {d : Dict α} (h : d.In P) : (innerDict d).In P := Dict.mk'_in_parse h.parse

theorem withOptional_in {α : Type} {d : Dict α} (h : d.In P) : (withOptional d).In P :=
  withModule_in (optionDict_in (innerDict_in h)).parse (optionDict_in (innerDict_in h)).inline (fun _ _ => trivial)
    fun _ _ _ => trivial

theorem withSeq_in {α : Type} {d : Dict α} (h : d.In P) : (withSeq d).In P :=
  withModule_in (seqDict_in (innerDict_in h)).parse (seqDict_in (innerDict_in h)).inline (fun _ _ => trivial)
    fun _ _ _ => trivial

theorem withMap_in {κ ν : Type} [DecidableEq κ] {kd : Dict κ} (keyStr : κ → Str) {vd : Dict ν} (hk : kd.In P)
    (hv : vd.In P) : (withMap kd keyStr vd).In P :=
  withModule_in (mapDict_in keyStr (innerDict_in hk) (innerDict_in hv)).parse
    (mapDict_in keyStr (innerDict_in hk) (innerDict_in hv)).inline (fun _ _ => trivial) fun _ _ _ => trivial

end

end Deluxe
