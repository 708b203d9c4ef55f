import Verif.Spec.Located
/-!
# Messages point into the input: the helper functions
-/
namespace Deluxe
variable {P : Span → Prop}

/-! ## Errors -/

/-- All collected messages point into `P`. -/
def Errors.In (P : Span → Prop) (e : Errors) : Prop := ∀ x, e.inner = some x → x.In P

theorem SynErr.in_new {sp : Span} (t : Text) (h : P sp) : (SynErr.new sp t).In P := by
  intro m hm
  simp only [SynErr.new, SynErr.toList, List.mem_singleton] at hm
  subst hm
  exact h

theorem SynErr.In.combine {a b : SynErr} (ha : a.In P) (hb : b.In P) : (a.combine b).In P := by
  intro m hm
  simp only [SynErr.combine, SynErr.toList, List.mem_cons, List.mem_append] at hm
  rcases hm with h | h | h
  · exact ha m (by simp [SynErr.toList, h])
  · exact ha m (by simp [SynErr.toList, h])
  · exact hb m (by simp [SynErr.toList, h])

theorem Errors.in_new : Errors.new.In P := fun _ h => by cases h

theorem Errors.In.pushSyn {e : Errors} {x : SynErr} (h : e.In P) (hx : x.In P) : (e.pushSyn x).In P := by
  intro y hy
  simp only [Errors.pushSyn] at hy
  cases he : e.inner with
  | none => rw [he] at hy; cases hy; exact hx
  | some s => rw [he] at hy; cases hy; exact (h s he).combine hx

theorem Errors.In.push {e : Errors} (h : e.In P) {sp : Span} (t : Text) (hs : P sp) : (e.push sp t).In P :=
  h.pushSyn (SynErr.in_new t hs)

theorem Errors.In.intoResult {α : Type} {e : Errors} (h : e.In P) {Q : α → Prop} {a : α} (ha : Q a) :
    (e.intoResult a).In P Q := by
  simp only [Errors.intoResult]
  cases he : e.inner with
  | none => exact ha
  | some x => exact h x he

theorem Errors.In.check {e : Errors} (h : e.In P) : e.check.In P fun _ => True := h.intoResult trivial

theorem Errors.In.bail {α : Type} {e : Errors} (h : e.In P) {Q : α → Prop} : (e.bail : Res α).In P Q := by
  simp only [Errors.bail, Errors.unwrapErr]
  cases he : e.inner with
  | none => trivial
  | some x => exact h x he

/-! ## Outcomes -/

section
variable {α β : Type} {Q R : α → Prop}

theorem Res.In.mono {r : Res α} (h : r.In P Q) (hq : ∀ a, Q a → R a) : r.In P R := by
  cases r with
  | ok a => exact hq a h
  | err e => exact h
  | panic => trivial

theorem Res.In.map {r : Res α} {S : β → Prop} (f : α → β) (h : r.In P Q) (hf : ∀ a, Q a → S (f a)) :
    (r.map f).In P S := by
  cases r with
  | ok a => exact hf a h
  | err e => exact h
  | panic => trivial

end

/-! ## Computations -/

section
variable {σ α β κ : Type} {I : σ → Prop} {Q : α → Prop} {R : β → Prop}

theorem Keeps.mono {Q' : α → Prop} {m : M σ α} (h : Keeps P I Q m) (hq : ∀ a, Q a → Q' a) : Keeps P I Q' m :=
  fun s hs => ⟨(h s hs).1.mono hq, (h s hs).2⟩

theorem Keeps.pure {a : α} (h : Q a) : Keeps P I Q (pure a : M σ α) := fun _ hs => ⟨h, hs⟩

theorem Keeps.bind {m : M σ α} {f : α → M σ β} (hm : Keeps P I Q m) (hf : ∀ a, Q a → Keeps P I R (f a)) :
    Keeps P I R (m >>= f) := by
  intro s hs
  obtain ⟨h1, h2⟩ := hm s hs
  simp only [Bind.bind, M.bind]
  cases h : m s with
  | mk r s' =>
    rw [h] at h1 h2
    cases r with
    | ok a => exact hf a h1 s' h2
    | err e => exact ⟨h1, h2⟩
    | panic => exact ⟨trivial, h2⟩

theorem Keeps.get : Keeps P I I (M.get : M σ σ) := fun _ hs => ⟨hs, hs⟩

theorem Keeps.panic : Keeps P I Q (M.panic : M σ α) := fun _ hs => ⟨trivial, hs⟩

theorem Keeps.onSnd {K : κ → Prop} {m : M σ α} (h : Keeps P I Q m) :
    Keeps P (fun st : κ × σ => K st.1 ∧ I st.2) Q (M.onSnd m) :=
  fun st hs => ⟨(h st.2 hs.2).1, hs.1, (h st.2 hs.2).2⟩

theorem Keeps.map {m : M σ α} (f : α → β) (h : Keeps P I Q m) (hf : ∀ a, Q a → R (f a)) : Keeps P I R (m.map f) :=
  fun s hs => ⟨(h s hs).1.map f hf, (h s hs).2⟩

end

theorem Loc.map {α β : Type} {m : M Stream α} (f : α → β) (h : Loc P m) : Loc P (m.map f) :=
  Keeps.map f h fun _ _ => trivial

theorem LocL.map {α β : Type} {m : M (List Stream) α} (f : α → β) (h : LocL P m) : LocL P (m.map f) :=
  Keeps.map f h fun _ _ => trivial

/-! ## Tokens and streams -/

theorem Tok.In.span {t : Tok} (h : t.In P) : P t.span := by cases h <;> assumption

theorem Stream.In.span {s : Stream} (h : s.In P) : P s.span := by
  simp only [Stream.span]
  cases hs : s.toks with
  | nil => exact h.scope
  | cons t rest => exact (h.toks t (hs ▸ List.mem_cons_self)).span

theorem Stream.In.error {s : Stream} (h : s.In P) (t : Text) : (s.error t).In P := by
  simp only [Stream.error]
  cases hs : s.toks with
  | nil => exact SynErr.in_new _ h.scope
  | cons tok rest => exact SynErr.in_new _ (h.toks tok (hs ▸ List.mem_cons_self)).span

theorem Stream.In.rest {s : Stream} {toks : List Tok} (h : s.In P) (hs : ∀ t ∈ toks, t ∈ s.toks) :
    Stream.In P { s with toks := toks } := ⟨fun t ht => h.toks t (hs t ht), h.scope, h.unexp⟩

theorem Stream.In.tail {s : Stream} (h : s.In P) : Stream.In P { s with toks := s.toks.tail } :=
  h.rest fun _ ht => List.mem_of_mem_tail ht

theorem Stream.In.fork {s : Stream} (h : s.In P) : s.fork.In P := ⟨h.toks, h.scope, fun _ hu => by cases hu⟩

theorem Stream.In.dropChild {s c : Stream} (h : s.In P) (hc : c.In P) : (s.dropChild c).In P := by
  refine ⟨h.toks, h.scope, fun sp hu => ?_⟩
  simp only [Stream.dropChild] at hu
  split at hu
  · rename_i x hx
    cases hu
    exact hc.unexp _ hx
  · cases hc2 : c.toks with
    | nil => rw [hc2] at hu; cases hu
    | cons t rest =>
      rw [hc2] at hu
      cases hu
      exact (hc.toks t (hc2 ▸ List.mem_cons_self)).span

theorem StreamsIn.fork {l : List Stream} (h : StreamsIn P l) : StreamsIn P (forkInputs l) := by
  intro s hs
  obtain ⟨t, ht, rfl⟩ := List.mem_map.1 hs
  exact (h t ht).fork

theorem StreamsIn.cons {s : Stream} {l : List Stream} (h : s.In P) (hl : StreamsIn P l) : StreamsIn P (s :: l) := by
  intro t ht
  rcases List.mem_cons.1 ht with rfl | ht
  · exact h
  · exact hl t ht

theorem StreamsIn.nil : StreamsIn P [] := fun _ h => by cases h

theorem StreamsIn.head {s : Stream} {l : List Stream} (h : StreamsIn P (s :: l)) : s.In P := h s List.mem_cons_self
theorem StreamsIn.tail {s : Stream} {l : List Stream} (h : StreamsIn P (s :: l)) : StreamsIn P l :=
  fun t ht => h t (List.mem_cons_of_mem _ ht)

theorem parsePunct_loc (c : Char) : Loc P (parsePunct c) := by
  intro s hs
  simp only [parsePunct]
  split
  · rename_i t rest ht
    split
    · exact ⟨trivial, hs.rest fun x hx => ht ▸ List.mem_cons_of_mem _ hx⟩
    · exact ⟨SynErr.in_new _ hs.span, hs⟩
  · exact ⟨SynErr.in_new _ hs.span, hs⟩

theorem parseComma_loc : Loc P parseComma := parsePunct_loc ','

theorem parseNothing_loc : Loc P parseNothing := fun _ hs => ⟨trivial, hs⟩

theorem enter_in {d : Delim} {s c s' : Stream} (hs : s.In P) (h : enter d s = .ok (c, s')) : c.In P ∧ s'.In P := by
  simp only [enter] at h
  split at h
  · rename_i d' inner sp close rest ht
    split at h
    · cases h
      have hg := hs.toks _ (ht ▸ List.mem_cons_self)
      cases hg with
      | group hi _ hc =>
        exact ⟨⟨hi, hc, hs.unexp⟩, hs.rest fun x hx => ht ▸ List.mem_cons_of_mem _ hx⟩
    · cases h
  · cases h

theorem enter_err {d : Delim} {s : Stream} {e : SynErr} (hs : s.In P) (h : enter d s = .error e) : e.In P := by
  simp only [enter] at h
  split at h
  · rename_i d' inner sp close rest ht
    split at h
    · cases h
    · cases h
      exact SynErr.in_new _ (hs.toks (.group d' inner sp close) (ht ▸ List.mem_cons_self)).span
  · cases h
    exact hs.error _

theorem withContent_loc {α : Type} (d : Delim) {f : M Stream α} (hf : Loc P f) : Loc P (withContent d f) := by
  intro s hs
  simp only [withContent]
  split
  · rename_i e he
    exact ⟨enter_err hs he, hs⟩
  · rename_i c s' he
    obtain ⟨h1, h2⟩ := enter_in hs he
    obtain ⟨h3, h4⟩ := hf c h1
    exact ⟨h3, h2.dropChild h4⟩

theorem single_loc {α : Type} {f : M (List Stream) α} (hf : LocL P f) : Loc P (single f) := by
  intro s hs
  obtain ⟨h1, h2⟩ := hf [s] (StreamsIn.nil.cons hs)
  simp only [single]
  refine ⟨h1, ?_⟩
  cases hl : (f [s]).2 with
  | nil => exact hs
  | cons t l => rw [hl] at h2; exact h2.head

theorem parseEof_loc : Loc P parseEof := by
  intro s hs
  simp only [parseEof]
  have h : Stream.In P (if s.peekPunct ',' then { s with toks := s.toks.tail } else s) := by
    split
    · exact hs.tail
    · exact hs
  generalize (if s.peekPunct ',' then { s with toks := s.toks.tail } else s) = s' at h
  split
  · rename_i t rest ht
    exact ⟨SynErr.in_new _ (h.toks t (ht ▸ List.mem_cons_self)).span, h⟩
  · exact ⟨trivial, h⟩

theorem thenEof_loc {α : Type} {f : M Stream α} (hf : Loc P f) :
    Loc P (do let r ← f; parseEof; pure r : M Stream α) :=
  Keeps.bind hf fun _ _ => Keeps.bind parseEof_loc fun _ _ => Keeps.pure trivial

theorem parseDelimitedWith_loc {α : Type} (d : Delim) {f : M Stream α} (hf : Loc P f) :
    Loc P (parseDelimitedWith d f) := withContent_loc d (thenEof_loc hf)

theorem parseDelimitedMetaItem_loc {α : Type} (d : Delim) {inline : Mode → M (List Stream) α} (m : Mode)
    (hf : LocL P (inline m)) : Loc P (parseDelimitedMetaItem d inline m) :=
  parseDelimitedWith_loc d (single_loc hf)

variable [Env]

omit [Env] in
theorem parse2_in {α : Type} {Q : α → Prop} (A : P callSite) {f : M Stream α} {toks : List Tok}
    (ht : ∀ t ∈ toks, t.In P) (hf : Keeps P (Stream.In P) Q f) : (parse2 f toks).In P Q := by
  obtain ⟨h1, h2⟩ := hf ⟨toks, callSite, none⟩ ⟨ht, A, fun _ h => by cases h⟩
  simp only [parse2]
  split
  · rename_i a s hr
    rw [hr] at h1 h2
    cases hu : s.unexp with
    | some sp => exact SynErr.in_new _ (h2.unexp sp hu)
    | none =>
      cases hs : s.toks with
      | nil => exact h1
      | cons t rest => exact SynErr.in_new _ (h2.toks t (hs ▸ List.mem_cons_self)).span
  · rename_i e s hr
    rw [hr] at h1
    exact h1
  · trivial

theorem parseEmpty_in {α : Type} {Q : α → Prop} [A : Area P] {sp : Span} {f : M Stream α} (hsp : P sp)
    (hf : Keeps P (Stream.In P) Q f) : (parseEmpty sp f).In P Q := by
  have h := parse2_in A.callSite (toks := []) (fun _ h => by cases h) hf
  simp only [parseEmpty]
  cases hr : parse2 f [] with
  | ok a => rw [hr] at h; exact h
  | panic => trivial
  | err e =>
    rw [hr] at h
    intro m hm
    simp only [respanFirst, SynErr.toList, List.mem_cons] at hm
    rcases hm with rfl | hm
    · exact hsp
    · exact h m (by simp [SynErr.toList, hm])

omit [Env] in
theorem Mode.in_unnamed : Mode.unnamed.In P := fun _ h => by cases h
omit [Env] in
theorem Mode.in_named {sp : Span} (h : P sp) : (Mode.named sp).In P := fun _ h' => by cases h'; exact h

omit [Env] in
theorem Mode.In.span {m : Mode} (h : m.In P) {x : Span} (hx : P x) : P (m.namedSpan.getD x) := by
  cases m with
  | named sp => exact h sp rfl
  | unnamed => exact hx

omit [Env] in
theorem Mode.In.toNamed {m : Mode} (h : m.In P) {s : Stream} (hs : s.In P) : (m.toNamed s).In P := by
  cases m with
  | named sp => exact h
  | unnamed => exact Mode.in_named hs.span

theorem parseEmptyMetaItem_in {α : Type} [Area P] {sp : Span} {f : M (List Stream) α} (hsp : P sp)
    (hf : LocL P f) : (parseEmptyMetaItem sp f).In P fun _ => True := parseEmpty_in hsp (single_loc hf)

theorem parseFirst_loc {α : Type} [A : Area P] {f : Mode → M Stream α} (m : Mode) (hm : m.In P)
    (hf : Loc P (f m)) : LocL P (parseFirst f m) := by
  intro l hl
  cases l with
  | nil => exact ⟨parseEmpty_in (hm.span A.callSite) hf, hl⟩
  | cons s rest =>
    obtain ⟨h1, h2⟩ := thenEof_loc hf s hl.head
    simp only [parseFirst]
    exact ⟨h1, hl.tail.cons h2⟩

omit [Env] in
theorem parseNamedWith_loc {α : Type} {parse : Mode → M Stream α} {inline : Mode → M (List Stream) α}
    {flag : Span → Res α} {sp : Span} (h1 : Loc P (parse (.named sp))) (h2 : LocL P (inline (.named sp)))
    (h3 : (flag sp).In P fun _ => True) : Loc P (parseNamedWith parse inline flag sp) := by
  intro s hs
  simp only [parseNamedWith]
  split
  · exact h1 _ hs.tail
  · split
    · exact parseDelimitedWith_loc .paren (single_loc h2) s hs
    · exact ⟨h3, hs⟩

omit [Env] in
theorem parseNamedMetaItem_loc {α : Type} {parse : Mode → M Stream α} {inline : Mode → M (List Stream) α}
    {flag : Span → Res α} {sp : Span} (h1 : Loc P (parse (.named sp))) (h2 : LocL P (inline (.named sp)))
    (h3 : (flag sp).In P fun _ => True) : Loc P (parseNamedMetaItem parse inline flag sp) := by
  intro s hs
  simp only [parseNamedMetaItem]
  split
  · exact Keeps.bind (parsePunct_loc '=') (fun _ _ => h1) s hs
  · split
    · exact parseDelimitedMetaItem_loc .paren _ h2 s hs
    · exact ⟨h3, hs⟩

/-! ## Paths -/

omit [Env] in
theorem pathLoop_in (toks : List Tok) (h : ∀ t ∈ toks, t.In P) :
    (∀ x ∈ (pathLoop toks).1, P x.2) ∧ ∀ t ∈ (pathLoop toks).2.2, t ∈ toks := by
  induction toks using pathLoop.induct with
  | case1 s sp sp1 b sp2 rest segs tr rest' heq ih =>
    have ih := ih fun t ht => h t (by simp [ht])
    simp only [pathLoop]
    refine ⟨fun x hx => ?_, fun t ht => by simp [ih.2 t ht]⟩
    rcases List.mem_cons.1 hx with rfl | hx
    · exact (h _ List.mem_cons_self).span
    · exact ih.1 x hx
  | case2 s sp rest hn =>
    rw [pathLoop]
    · refine ⟨fun x hx => ?_, fun t ht => by simp [ht]⟩
      simp only [List.mem_singleton] at hx
      subst hx
      exact (h _ List.mem_cons_self).span
    · exact hn
  | case3 toks h1 h2 =>
    rw [pathLoop]
    · exact ⟨fun x hx => by simp at hx, fun t ht => ht⟩
    · exact h1
    · exact h2

theorem joinSpans_in [A : Area P] {a : Span} {l : List Span} (h : P a) (hl : ∀ x ∈ l, P x) : P (joinSpans a l) := by
  simp only [joinSpans]
  split
  · exact h
  · rename_i x hx
    have hx := hl x (List.mem_of_getLast? hx)
    cases hj : Env.join a x with
    | none => exact h
    | some c => exact A.join h hx hj

theorem parseAnyPath_keeps [A : Area P] : Keeps P (Stream.In P) (fun p : Path => P p.span) parseAnyPath := by
  intro s hs
  have hlead : (∀ x ∈ (leadColon s.toks).1, P x) ∧ ∀ t ∈ (leadColon s.toks).2, t ∈ s.toks := by
    have ht := hs.toks
    generalize s.toks = toks at ht
    simp only [leadColon]
    split
    · rename_i sp b sp2 rest
      refine ⟨fun x hx => ?_, fun t ht => by simp [ht]⟩
      simp only [List.mem_cons, List.not_mem_nil, or_false] at hx
      rcases hx with rfl | rfl
      · exact (ht _ List.mem_cons_self).span
      · exact (ht (.punct ':' b x) (by simp)).span
    · exact ⟨fun x hx => by simp at hx, fun t ht => ht⟩
  have hp := pathLoop_in (leadColon s.toks).2 fun t ht => hs.toks t (hlead.2 t ht)
  have hs' : Stream.In P { s with toks := (pathLoop (leadColon s.toks).2).2.2 } :=
    hs.rest fun t ht => hlead.2 t (hp.2 t ht)
  simp only [parseAnyPath]
  split
  · exact ⟨hs'.error _, hs'⟩
  · split
    · exact ⟨hs'.error _, hs'⟩
    · refine ⟨?_, hs'⟩
      have hall : ∀ x ∈ (leadColon s.toks).1 ++ (pathLoop (leadColon s.toks).2).1.map (·.2), P x := by
        intro x hx
        rcases List.mem_append.1 hx with hx | hx
        · exact hlead.1 x hx
        · obtain ⟨y, hy, rfl⟩ := List.mem_map.1 hx
          exact hp.1 y hy
      show P (joinSpans _ _)
      refine joinSpans_in ?_ fun x hx => hall x (List.mem_of_mem_tail hx)
      cases hl : (leadColon s.toks).1 ++ (pathLoop (leadColon s.toks).2).1.map (·.2) with
      | nil => exact A.callSite
      | cons x l => exact hall x (hl ▸ List.mem_cons_self)

/-! ## Loops -/

section
variable {κ : Type} {K : κ → Prop}

/-- The state of a loop: captured variables and a stream. -/
abbrev LoopIn (P : Span → Prop) (K : κ → Prop) (st : κ × Stream) : Prop := K st.1 ∧ st.2.In P
/-- Captured variables and several streams. -/
abbrev LoopsIn (P : Span → Prop) (K : κ → Prop) (st : κ × List Stream) : Prop := K st.1 ∧ StreamsIn P st.2

theorem structLoop_keeps [A : Area P] {func : Str → Span → M (κ × Stream) Unit}
    (hf : ∀ p sp, P sp → Keeps P (LoopIn P K) (fun _ => True) (func p sp)) (n : Nat) :
    Keeps P (LoopIn P K) (fun _ => True) (structLoop func n) := by
  induction n with
  | zero => exact Keeps.panic
  | succ n ih =>
    intro st hs
    simp only [structLoop]
    split
    · exact ⟨trivial, hs⟩
    · refine Keeps.bind (Keeps.onSnd parseAnyPath_keeps) (fun p hp => ?_) st hs
      refine Keeps.bind (hf _ _ hp) fun _ _ => Keeps.bind Keeps.get fun st' _ => ?_
      split
      · exact ih
      · exact Keeps.bind (Keeps.onSnd parseComma_loc) fun _ _ => ih

omit [Env] in
theorem forStreams_keeps {body : Nat → M (κ × Stream) Unit}
    (hf : ∀ n, Keeps P (LoopIn P K) (fun _ => True) (body n)) :
    Keeps P (LoopsIn P K) (fun _ => True) (forStreams body) := by
  intro st hs
  obtain ⟨k, l⟩ := st
  simp only [forStreams]
  induction l generalizing k with
  | nil => exact ⟨trivial, hs⟩
  | cons s rest ih =>
    obtain ⟨h1, h2, h3⟩ := hf (s.toks.length + 1) (k, s) ⟨hs.1, hs.2.head⟩
    rw [forStreams.go]
    cases hb : body (s.toks.length + 1) (k, s) with
    | mk r st' =>
      obtain ⟨k', s'⟩ := st'
      rw [hb] at h1 h2 h3
      cases r with
      | ok u =>
        obtain ⟨g1, g2, g3⟩ := ih k' ⟨h2, hs.2.tail⟩
        exact ⟨g1, g2, g3.cons h3⟩
      | err e => exact ⟨h1, h2, hs.2.tail.cons h3⟩
      | panic => exact ⟨trivial, h2, hs.2.tail.cons h3⟩

theorem parseStruct_keeps [A : Area P] {func : Str → Span → M (κ × Stream) Unit}
    (hf : ∀ p sp, P sp → Keeps P (LoopIn P K) (fun _ => True) (func p sp)) :
    Keeps P (LoopsIn P K) (fun _ => True) (parseStruct func) :=
  forStreams_keeps fun n => structLoop_keeps hf n

omit [Env] in
theorem onHead_keeps {α : Type} {m : M Stream α} (h : Loc P m) :
    Keeps P (LoopsIn P K) (fun _ => True) (onHead m : M (κ × List Stream) α) := by
  intro st hs
  obtain ⟨k, l⟩ := st
  cases l with
  | nil => exact ⟨trivial, hs⟩
  | cons s rest =>
    obtain ⟨h1, h2⟩ := h s hs.2.head
    exact ⟨h1, hs.1, hs.2.tail.cons h2⟩

omit [Env] in
theorem tupleLoop_located {func : Nat → M (κ × List Stream) Unit}
    (hf : ∀ i, Keeps P (LoopsIn P K) (fun _ => True) (func i)) (rem counter : Nat) :
    Keeps P (LoopsIn P K) (fun _ => True) (tupleLoop func rem counter) := by
  induction rem generalizing counter with
  | zero =>
    intro st hs
    simp only [tupleLoop]
    split <;> exact ⟨trivial, hs⟩
  | succ rem ih =>
    intro st hs
    simp only [tupleLoop]
    split
    · exact ⟨trivial, hs⟩
    · split
      · exact ⟨trivial, hs⟩
      · refine Keeps.bind (hf counter) (fun _ _ => Keeps.bind Keeps.get fun st' _ => ?_) st hs
        split
        · exact ih _
        · exact Keeps.bind (onHead_keeps parseComma_loc) fun _ _ => ih _

omit [Env] in
theorem tupleGo_keeps {func : Nat → M (κ × List Stream) Unit} (len : Nat)
    (hf : ∀ i, Keeps P (LoopsIn P K) (fun _ => True) (func i)) (n counter : Nat) :
    Keeps P (LoopsIn P K) (fun _ => True) (parseTupleStruct.go func len n counter) := by
  induction n generalizing counter with
  | zero => exact fun st hs => ⟨trivial, hs⟩
  | succ n ih =>
    intro st hs
    obtain ⟨h1, h2⟩ := tupleLoop_located hf (len - counter) counter st hs
    simp only [parseTupleStruct.go]
    split
    · rename_i heq; rw [heq] at h2; exact ⟨trivial, h2⟩
    · rename_i c k l heq
      rw [heq] at h2
      cases l with
      | nil => exact ⟨trivial, h2⟩
      | cons s rest =>
        obtain ⟨g1, g2, g3⟩ := ih c (k, rest) ⟨h2.1, h2.2.tail⟩
        exact ⟨g1, g2, g3.cons h2.2.head⟩
    · rename_i heq; rw [heq] at h1 h2; exact ⟨h1, h2⟩
    · rename_i heq; rw [heq] at h2; exact ⟨trivial, h2⟩

omit [Env] in
theorem parseTupleStruct_located {func : Nat → M (κ × List Stream) Unit} (len : Nat)
    (hf : ∀ i, Keeps P (LoopsIn P K) (fun _ => True) (func i)) :
    Keeps P (LoopsIn P K) (fun _ => True) (parseTupleStruct func len) :=
  fun st hs => tupleGo_keeps len hf st.2.length 0 st hs

end

omit [Env] in
theorem skipToks_mem (toks : List Tok) : ∀ t ∈ skipToks toks, t ∈ toks := by
  induction toks with
  | nil => intro t ht; cases ht
  | cons x rest ih =>
    intro t ht
    simp only [skipToks] at ht
    split at ht
    · exact ht
    · exact List.mem_cons_of_mem _ (ih t ht)

omit [Env] in
theorem Stream.In.skip {s : Stream} (h : s.In P) : (skipMetaItem s).In P := h.rest (skipToks_mem _)

omit [Env] in
theorem StreamsIn.skipAll {l : List Stream} (h : StreamsIn P l) : StreamsIn P (skipAll l) := by
  intro s hs
  obtain ⟨t, ht, rfl⟩ := List.mem_map.1 hs
  exact (h t ht).rest fun _ h => by cases h

theorem inputsSpan_in [A : Area P] {l : List Stream} (h : StreamsIn P l) : P (inputsSpan l) := by
  cases l with
  | nil => exact A.callSite
  | cons s rest =>
    simp only [inputsSpan]
    have hs : P s.span := h.head.span
    have hr := h.tail
    clear h
    generalize s.span = sp at hs
    induction rest generalizing sp with
    | nil => exact hs
    | cons t rest ih =>
      refine ih hr.tail _ ?_
      show P ((Env.join sp t.span).getD sp)
      cases hj : Env.join sp t.span with
      | none => exact hs
      | some c => exact A.join hs hr.head.span hj

theorem Mode.In.full [A : Area P] {m : Mode} (h : m.In P) {l : List Stream} (hl : StreamsIn P l) :
    P (m.toFullSpan l) := h.span (inputsSpan_in hl)

omit [Env] in
theorem eofAll_loc : LocL P eofAll := by
  intro l
  induction l with
  | nil => exact fun hl => ⟨trivial, hl⟩
  | cons s rest ih =>
    intro hl
    obtain ⟨h1, h2⟩ := parseEof_loc s hl.head
    simp only [eofAll]
    cases hb : parseEof s with
    | mk r s' =>
      rw [hb] at h1 h2
      cases r with
      | ok u =>
        obtain ⟨g1, g2⟩ := ih hl.tail
        exact ⟨g1, g2.cons h2⟩
      | err e => exact ⟨h1, hl.tail.cons h2⟩
      | panic => exact ⟨trivial, hl.tail.cons h2⟩

theorem unknown_in {p : Str} {sp : Span} (h : P sp) (fields : List Str) {errs : Errors} (he : errs.In P) :
    (checkUnknownAttribute p sp fields errs).1.In P := by
  simp only [checkUnknownAttribute]
  split
  · exact he
  · exact he.pushSyn (SynErr.in_new _ h)

/-! ## Dictionaries -/

omit [Env] in
theorem missing_in {α : Type} {n : Str} {sp : Span} (h : P sp) :
    (.err (missingFieldError n sp) : Res α).In P fun _ => True := SynErr.in_new _ h

omit [Env] in
theorem flagDisallowed_in {α : Type} {sp : Span} (h : P sp) :
    (.err (flagDisallowedError sp) : Res α).In P fun _ => True := SynErr.in_new _ h

omit [Env] in
/-- The four functions of an implementation are enough. -/
theorem Dict.mk'_in_all {α : Type} {parse : Mode → M Stream α} {inline : Mode → M (List Stream) α}
    {flag : Span → Res α} {missing : Str → Span → Res α} (h1 : ∀ m : Mode, m.In P → Loc P (parse m))
    (h2 : ∀ m : Mode, m.In P → LocL P (inline m)) (h3 : ∀ sp, P sp → (flag sp).In P fun _ => True)
    (h4 : ∀ n sp, P sp → (missing n sp).In P fun _ => True) : (Dict.mk' parse inline flag missing).In P :=
  ⟨h1, h2, h3, fun _ sp hs => parseNamedMetaItem_loc (h1 _ (Mode.in_named hs)) (h2 _ (Mode.in_named hs)) (h3 sp hs), h4⟩

theorem Dict.mk'_in {α : Type} [Area P] {parse : Mode → M Stream α} {flag : Span → Res α}
    {missing : Str → Span → Res α} (h1 : ∀ m : Mode, m.In P → Loc P (parse m))
    (h3 : ∀ sp, P sp → (flag sp).In P fun _ => True) (h4 : ∀ n sp, P sp → (missing n sp).In P fun _ => True) :
    (Dict.mk' parse (parseFirst parse) flag missing).In P :=
  Dict.mk'_in_all h1 (fun m hm => parseFirst_loc m hm (h1 m hm)) h3 h4

/-- An implementation that gives `parse_meta_item` only. -/
theorem Dict.mk'_in_parse {α : Type} [Area P] {parse : Mode → M Stream α}
    (h1 : ∀ m : Mode, m.In P → Loc P (parse m)) : (Dict.mk' parse).In P :=
  Dict.mk'_in h1 (fun _ => flagDisallowed_in) (fun _ _ => missing_in)

omit [Env] in
theorem Dict.In.map {α β : Type} {d : Dict α} (h : d.In P) (f : α → β) : (d.map f).In P :=
  ⟨fun m hm => (h.parse m hm).map f, fun m hm => (h.inline m hm).map f, fun sp hs => (h.flag sp hs).map f (fun _ _ => trivial),
    fun n sp hs => (h.named n sp hs).map f, fun n sp hs => (h.missing n sp hs).map f (fun _ _ => trivial)⟩

/-! ## Accumulating loops -/

/-- The collected errors of a loop. -/
abbrev AccIn {γ : Type} (P : Span → Prop) (a : Acc γ) : Prop := a.errs.In P

omit [Env] in
theorem itemLoop_keeps {κ : Type} {K : κ → Prop} {step : M (κ × Stream) Unit}
    (hf : Keeps P (LoopIn P K) (fun _ => True) step) (n : Nat) :
    Keeps P (LoopIn P K) (fun _ => True) (itemLoop step n) := by
  induction n with
  | zero => exact Keeps.panic
  | succ n ih =>
    intro st hs
    simp only [itemLoop]
    split
    · exact ⟨trivial, hs⟩
    · refine Keeps.bind hf (fun _ _ => Keeps.bind Keeps.get fun st' _ => ?_) st hs
      split
      · exact ih
      · exact Keeps.bind (Keeps.onSnd parseComma_loc) fun _ _ => ih

omit [Env] in
theorem runAcc_loc {γ : Type} (init : γ) {m : M (Acc γ × List Stream) Unit}
    (h : Keeps P (LoopsIn P (AccIn P)) (fun _ => True) m) : LocL P (runAcc init m) := by
  intro l hl
  obtain ⟨h1, h2⟩ := h (⟨init, Errors.new⟩, l) ⟨Errors.in_new, hl⟩
  simp only [runAcc]
  split
  · rename_i heq; rw [heq] at h2; exact ⟨Errors.In.intoResult h2.1 trivial, h2.2⟩
  · rename_i heq; rw [heq] at h1 h2; exact ⟨h1, h2.2⟩
  · rename_i heq; rw [heq] at h2; exact ⟨trivial, h2.2⟩

omit [Env] in
theorem runAccPush_loc {γ : Type} (init : γ) {m : M (Acc γ × List Stream) Unit}
    (h : Keeps P (LoopsIn P (AccIn P)) (fun _ => True) m) : LocL P (runAccPush init m) := by
  intro l hl
  obtain ⟨h1, h2⟩ := h (⟨init, Errors.new⟩, l) ⟨Errors.in_new, hl⟩
  simp only [runAccPush]
  split
  · rename_i heq; rw [heq] at h2; exact ⟨Errors.In.intoResult h2.1 trivial, h2.2⟩
  · rename_i heq
    rw [heq] at h1 h2
    exact ⟨Errors.In.intoResult (Errors.In.pushSyn h2.1 h1) trivial, h2.2⟩
  · rename_i heq; rw [heq] at h2; exact ⟨trivial, h2.2⟩

omit [Env] in
theorem stepPush_keeps {α γ : Type} {item : M Stream α} (hi : Loc P item) {push : Acc γ → α → Stream → Stream → Acc γ}
    (hp : ∀ acc a s s', AccIn P acc → s.In P → s'.In P → AccIn P (push acc a s s')) :
    Keeps P (LoopIn P (AccIn P)) (fun _ => True) (stepPush item push) := by
  intro st hs
  obtain ⟨acc, s⟩ := st
  obtain ⟨h1, h2⟩ := hi s hs.2
  simp only [stepPush]
  split
  · rename_i heq; rw [heq] at h2; exact ⟨trivial, hp _ _ _ _ hs.1 hs.2 h2, h2⟩
  · rename_i heq; rw [heq] at h1 h2; exact ⟨trivial, Errors.In.pushSyn hs.1 h1, h2.skip⟩
  · rename_i heq; rw [heq] at h2; exact ⟨trivial, hs.1, h2⟩

end Deluxe
