import Verif.Props.Tokens
import Verif.Spec.Reloc
/-!
# Changing the locations of tokens: the helper functions
-/
namespace Deluxe
variable {f : Span → Span}

/-! ## Tokens -/

@[simp] theorem Tok.relocs_nil : Tok.relocs f [] = [] := rfl
@[simp] theorem Tok.relocs_cons (t : Tok) (ts : List Tok) : Tok.relocs f (t :: ts) = t.reloc f :: Tok.relocs f ts := rfl

theorem Tok.relocs_eq (l : List Tok) : Tok.relocs f l = l.map (Tok.reloc f) := by
  induction l with
  | nil => rfl
  | cons t l ih => simp [ih]

@[simp] theorem Tok.relocs_append (l m : List Tok) : Tok.relocs f (l ++ m) = Tok.relocs f l ++ Tok.relocs f m := by
  simp [Tok.relocs_eq]

@[simp] theorem Tok.relocs_length (l : List Tok) : (Tok.relocs f l).length = l.length := by simp [Tok.relocs_eq]
@[simp] theorem Tok.relocs_isEmpty (l : List Tok) : (Tok.relocs f l).isEmpty = l.isEmpty := by cases l <;> rfl
@[simp] theorem Tok.relocs_tail (l : List Tok) : (Tok.relocs f l).tail = Tok.relocs f l.tail := by cases l <;> rfl

@[simp] theorem Tok.reloc_span (t : Tok) : (t.reloc f).span = f t.span := by cases t <;> rfl
@[simp] theorem Tok.reloc_isPunct (c : Char) (t : Tok) : (t.reloc f).isPunct c = t.isPunct c := by cases t <;> rfl
@[simp] theorem Tok.reloc_isComma (t : Tok) : (t.reloc f).isComma = t.isComma := Tok.reloc_isPunct ',' t

/-! ## Errors -/

@[simp] theorem SynErr.reloc_new (sp : Span) (t : Text) : (SynErr.new sp t).reloc f = .new (f sp) (t.reloc f) := rfl
@[simp] theorem SynErr.reloc_toList (e : SynErr) : (e.reloc f).toList = e.toList.map (Msg.reloc f) := rfl
@[simp] theorem SynErr.reloc_combine (a b : SynErr) : (a.combine b).reloc f = (a.reloc f).combine (b.reloc f) := by
  simp [SynErr.combine, SynErr.reloc, SynErr.toList]

def Errors.reloc (f : Span → Span) (e : Errors) : Errors := ⟨e.inner.map (SynErr.reloc f)⟩

@[simp] theorem Errors.reloc_new : Errors.new.reloc f = Errors.new := rfl
@[simp] theorem Errors.reloc_isEmpty (e : Errors) : (e.reloc f).isEmpty = e.isEmpty := by
  obtain ⟨_ | e⟩ := e <;> rfl
@[simp] theorem Errors.reloc_pushSyn (e : Errors) (x : SynErr) : (e.reloc f).pushSyn (x.reloc f) = (e.pushSyn x).reloc f := by
  obtain ⟨_ | e⟩ := e
  · rfl
  · simp [Errors.reloc, Errors.pushSyn]
theorem Errors.reloc_push (e : Errors) (sp : Span) (t : Text) :
    (e.reloc f).push (f sp) (t.reloc f) = (e.push sp t).reloc f := Errors.reloc_pushSyn e (.new sp t)
theorem Errors.reloc_intoResult {α β : Type} (v : α → β) (e : Errors) (a : α) :
    (e.reloc f).intoResult (v a) = (e.intoResult a).reloc f v := by
  obtain ⟨_ | e⟩ := e <;> rfl
@[simp] theorem Errors.reloc_check (e : Errors) : (e.reloc f).check = e.check.reloc f id := by
  obtain ⟨_ | e⟩ := e <;> rfl
theorem Errors.reloc_bail {α β : Type} (v : α → β) (e : Errors) :
    ((e.reloc f).bail : Res β) = (e.bail : Res α).reloc f v := by
  obtain ⟨_ | e⟩ := e <;> rfl

/-! ## Outcomes -/

section
variable {α β γ δ : Type}

@[simp] theorem Res.reloc_ok (v : α → β) (a : α) : (Res.ok a).reloc f v = .ok (v a) := rfl
@[simp] theorem Res.reloc_err (v : α → β) (e : SynErr) : (Res.err e : Res α).reloc f v = .err (e.reloc f) := rfl
@[simp] theorem Res.reloc_panic (v : α → β) : (Res.panic : Res α).reloc f v = .panic := rfl
@[simp] theorem Res.reloc_isOk (v : α → β) (r : Res α) : (r.reloc f v).isOk = r.isOk := by cases r <;> rfl

theorem Res.reloc_map {v : α → β} {w : γ → δ} {p : α → γ} {q : β → δ} (h : ∀ a, q (v a) = w (p a)) (r : Res α) :
    (r.reloc f v).map q = (r.map p).reloc f w := by cases r <;> simp [Res.map, h]

end

/-! ## Streams -/

@[simp] theorem Stream.reloc_toks (s : Stream) : (s.reloc f).toks = Tok.relocs f s.toks := rfl
@[simp] theorem Stream.reloc_scope (s : Stream) : (s.reloc f).scope = f s.scope := rfl
@[simp] theorem Stream.reloc_unexp (s : Stream) : (s.reloc f).unexp = s.unexp.map f := rfl
@[simp] theorem Stream.reloc_isEmpty (s : Stream) : (s.reloc f).isEmpty = s.isEmpty := Tok.relocs_isEmpty _
@[simp] theorem Stream.reloc_span (s : Stream) : (s.reloc f).span = f s.span := by
  obtain ⟨_ | ⟨t, ts⟩, sc, u⟩ := s
  · rfl
  · exact Tok.reloc_span t
@[simp] theorem Stream.reloc_fork (s : Stream) : (s.reloc f).fork = s.fork.reloc f := rfl
@[simp] theorem Stream.reloc_peekPunct (c : Char) (s : Stream) : (s.reloc f).peekPunct c = s.peekPunct c := by
  obtain ⟨_ | ⟨t, ts⟩, sc, u⟩ := s
  · rfl
  · exact Tok.reloc_isPunct c t
@[simp] theorem Stream.reloc_peekDelim (d : Delim) (s : Stream) : (s.reloc f).peekDelim d = s.peekDelim d := by
  obtain ⟨_ | ⟨t, ts⟩, sc, u⟩ := s
  · rfl
  · cases t <;> rfl
theorem Stream.reloc_error (s : Stream) (t : Text) : (s.reloc f).error (t.reloc f) = (s.error t).reloc f := by
  obtain ⟨_ | ⟨tok, ts⟩, sc, u⟩ := s
  · rfl
  · simp [Stream.error]
@[simp] theorem Stream.reloc_dropChild (s c : Stream) : (s.reloc f).dropChild (c.reloc f) = (s.dropChild c).reloc f := by
  obtain ⟨ts, sc, u⟩ := s
  obtain ⟨_ | ⟨t, ts'⟩, sc', _ | u'⟩ := c <;> simp [Stream.dropChild, Stream.reloc]
theorem Stream.reloc_with (s : Stream) (toks : List Tok) :
    ({ s.reloc f with toks := Tok.relocs f toks } : Stream) = Stream.reloc f { s with toks := toks } := rfl
@[simp] theorem Stream.reloc_drop (s : Stream) :
    ({ s.reloc f with toks := (s.reloc f).toks.tail } : Stream) = Stream.reloc f { s with toks := s.toks.tail } := by
  simp [Stream.reloc]

@[simp] theorem Mode.reloc_named (sp : Span) : (Mode.named sp).reloc f = .named (f sp) := rfl
@[simp] theorem Mode.reloc_unnamed : Mode.unnamed.reloc f = .unnamed := rfl
@[simp] theorem Mode.reloc_namedSpan (m : Mode) : (m.reloc f).namedSpan = m.namedSpan.map f := by cases m <;> rfl
@[simp] theorem Mode.reloc_toSpan (m : Mode) (s : Stream) : (m.reloc f).toSpan (s.reloc f) = f (m.toSpan s) := by
  cases m
  · rfl
  · exact Stream.reloc_span s
@[simp] theorem Mode.reloc_toNamed (m : Mode) (s : Stream) : (m.reloc f).toNamed (s.reloc f) = (m.toNamed s).reloc f := by
  cases m
  · rfl
  · simp [Mode.toNamed]

/-! ## Computations -/

section
variable {σ σ' α β γ δ κ κ' : Type} {g : σ → σ'} {v : α → β} {w : γ → δ}

theorem RelocM.pure {a : α} {b : β} (h : v a = b) : RelocM f g v (pure a : M σ α) (pure b : M σ' β) := by
  subst h; exact fun _ => rfl

theorem RelocM.bind {m : M σ α} {m' : M σ' β} {k : α → M σ γ} {k' : β → M σ' δ} (h : RelocM f g v m m')
    (hk : ∀ a, RelocM f g w (k a) (k' (v a))) : RelocM f g w (m >>= k) (m' >>= k') := by
  intro s
  simp only [Bind.bind, M.bind, h s]
  rcases m s with ⟨_ | _ | _, s'⟩
  · exact hk _ s'
  · rfl
  · rfl

theorem RelocM.map {p : α → γ} {q : β → δ} {m : M σ α} {m' : M σ' β} (h : RelocM f g v m m')
    (hq : ∀ a, q (v a) = w (p a)) : RelocM f g w (m.map p) (m'.map q) := by
  intro s
  simp only [M.map, h s, Res.reloc_map hq]

theorem RelocM.mapRes {p : Res α → Res γ} {q : Res β → Res δ} {m : M σ α} {m' : M σ' β} (h : RelocM f g v m m')
    (hq : ∀ r, q (r.reloc f v) = (p r).reloc f w) : RelocM f g w (m.mapRes p) (m'.mapRes q) := by
  intro s
  simp only [M.mapRes, h s, hq]

theorem RelocM.get : RelocM f g g (M.get : M σ σ) (M.get : M σ' σ') := fun _ => rfl
theorem RelocM.panic : RelocM f g v (M.panic : M σ α) (M.panic : M σ' β) := fun _ => rfl

theorem RelocM.onSnd (k : κ → κ') {m : M σ α} {m' : M σ' β} (h : RelocM f g v m m') :
    RelocM f (Prod.map k g) v (M.onSnd m) (M.onSnd m') := by
  rintro ⟨a, s⟩
  simp only [M.onSnd, Prod.map_apply, h s]

theorem RelocM.ite {c c' : Bool} (hc : c' = c) {m n : M σ α} {m' n' : M σ' β} (hm : RelocM f g v m m')
    (hn : RelocM f g v n n') : RelocM f g v (if c then m else n) (if c' then m' else n') := by
  subst hc
  cases c' <;> assumption

end

/-! ## syn -/

section
variable {α β : Type} {v : α → β}

theorem parsePunct_reloc (c : Char) : RelocS f id (parsePunct c) (parsePunct c) := by
  rintro ⟨_ | ⟨t, ts⟩, sc, u⟩
  · rfl
  · simp only [parsePunct, Stream.reloc_toks, Tok.relocs_cons, Tok.reloc_isPunct]
    split
    · rfl
    · simp [Text.reloc]

theorem parseComma_reloc : RelocS f id parseComma parseComma := parsePunct_reloc _

theorem enter_reloc (d : Delim) (s : Stream) : enter d (s.reloc f) =
    match enter d s with
    | .error e => .error (e.reloc f)
    | .ok (c, s') => .ok (c.reloc f, s'.reloc f) := by
  obtain ⟨_ | ⟨t, ts⟩, sc, u⟩ := s
  · rfl
  · cases t with
    | group d' inner sp close =>
      simp only [enter, Stream.reloc_toks, Tok.relocs_cons, Tok.reloc]
      split <;> rfl
    | _ => rfl

theorem withContent_reloc (d : Delim) {m : M Stream α} {m' : M Stream β} (h : RelocS f v m m') :
    RelocS f v (withContent d m) (withContent d m') := by
  intro s
  simp only [withContent, enter_reloc]
  rcases enter d s with e | ⟨c, s'⟩
  · rfl
  · simp [h c]

theorem single_reloc {m : M (List Stream) α} {m' : M (List Stream) β} (h : RelocL f v m m') :
    RelocS f v (single m) (single m') := by
  intro s
  have := h [s]
  simp only [List.map_cons, List.map_nil] at this
  simp only [single, this]
  cases (m [s]).2 <;> rfl

theorem parseEof_reloc : RelocS f id parseEof parseEof := by
  intro s
  simp only [parseEof, Stream.reloc_peekPunct]
  obtain ⟨_ | ⟨t, _ | ⟨t2, ts⟩⟩, sc, u⟩ := s
  · rfl
  · rcases Bool.eq_false_or_eq_true (Stream.peekPunct ',' ⟨[t], sc, u⟩) with h | h <;>
      simp [h, Stream.reloc, Text.reloc]
  · rcases Bool.eq_false_or_eq_true (Stream.peekPunct ',' ⟨t :: t2 :: ts, sc, u⟩) with h | h <;>
      simp [h, Stream.reloc, Text.reloc]

theorem peekEof_reloc (s : Stream) : peekEof (s.reloc f) = peekEof s := by
  simp only [peekEof, Stream.reloc_fork, parseEof_reloc s.fork, Res.reloc_isOk]

theorem parseDelimitedWith_reloc (d : Delim) {m : M Stream α} {m' : M Stream β} (h : RelocS f v m m') :
    RelocS f v (parseDelimitedWith d m) (parseDelimitedWith d m') :=
  withContent_reloc d (h.bind fun _ => parseEof_reloc.bind fun _ => RelocM.pure rfl)

theorem parseDelimitedMetaItem_reloc (d : Delim) {m : Mode → M (List Stream) α} {m' : Mode → M (List Stream) β}
    (mode : Mode) (h : RelocL f v (m mode) (m' (mode.reloc f))) :
    RelocS f v (parseDelimitedMetaItem d m mode) (parseDelimitedMetaItem d m' (mode.reloc f)) :=
  parseDelimitedWith_reloc d (single_reloc h)

@[simp] theorem respanFirst_reloc (sp : Span) (e : SynErr) :
    respanFirst (f sp) (e.reloc f) = (respanFirst sp e).reloc f := rfl

theorem parse2_reloc (hs : f callSite = callSite) {m : M Stream α} {m' : M Stream β} (h : RelocS f v m m')
    (toks : List Tok) : parse2 m' (Tok.relocs f toks) = (parse2 m toks).reloc f v := by
  have e : (⟨Tok.relocs f toks, callSite, none⟩ : Stream) = Stream.reloc f ⟨toks, callSite, none⟩ := by
    simp [Stream.reloc, hs]
  simp only [parse2, e, h _]
  rcases m ⟨toks, callSite, none⟩ with ⟨a | er | _, ts, sc, _ | u⟩
  · cases ts with
    | nil => rfl
    | cons t ts => simp [Text.reloc]
  · rfl
  all_goals rfl

theorem parseEmpty_reloc (hs : f callSite = callSite) {m : M Stream α} {m' : M Stream β} (h : RelocS f v m m')
    (sp : Span) : parseEmpty (f sp) m' = (parseEmpty sp m).reloc f v := by
  have := parse2_reloc hs h []
  simp only [Tok.relocs_nil] at this
  simp only [parseEmpty, this]
  cases parse2 m [] <;> rfl

theorem parseEmptyMetaItem_reloc (hs : f callSite = callSite) {m : M (List Stream) α} {m' : M (List Stream) β}
    (h : RelocL f v m m') (sp : Span) : parseEmptyMetaItem (f sp) m' = (parseEmptyMetaItem sp m).reloc f v :=
  parseEmpty_reloc hs (single_reloc h) sp

theorem parseFirst_reloc (hs : f callSite = callSite) {p : Mode → M Stream α} {p' : Mode → M Stream β} (mode : Mode)
    (h : RelocS f v (p mode) (p' (mode.reloc f))) :
    RelocL f v (parseFirst p mode) (parseFirst p' (mode.reloc f)) := by
  rintro (_ | ⟨s, rest⟩)
  · simp only [parseFirst, List.map_nil, Mode.reloc_namedSpan]
    rw [← parseEmpty_reloc hs h]
    congr 1
    cases mode.namedSpan with
    | none => exact congrArg (parseEmpty · _) hs.symm
    | some sp => rfl
  · have := (h.bind (w := v) (k := fun a => (do parseEof; Pure.pure a : M Stream α))
      (k' := fun a => (do parseEof; Pure.pure a : M Stream β))
      fun _ => parseEof_reloc.bind fun _ => RelocM.pure rfl) s
    simp only [parseFirst, List.map_cons]
    rw [this]

theorem parseNamedWith_reloc {p : Mode → M Stream α} {p' : Mode → M Stream β} {i : Mode → M (List Stream) α}
    {i' : Mode → M (List Stream) β} {fl : Span → Res α} {fl' : Span → Res β}
    (hp : ∀ m, RelocS f v (p m) (p' (m.reloc f))) (hi : ∀ m, RelocL f v (i m) (i' (m.reloc f)))
    (hf : ∀ sp, fl' (f sp) = (fl sp).reloc f v) (sp : Span) :
    RelocS f v (parseNamedWith p i fl sp) (parseNamedWith p' i' fl' (f sp)) := by
  intro s
  simp only [parseNamedWith, Stream.reloc_peekPunct, Stream.reloc_peekDelim]
  split
  · rw [Stream.reloc_drop]; exact hp (.named sp) _
  · split
    · exact parseDelimitedWith_reloc .paren (single_reloc (hi (.named sp))) s
    · simp [hf]

theorem parseNamedMetaItem_reloc {p : Mode → M Stream α} {p' : Mode → M Stream β} {i : Mode → M (List Stream) α}
    {i' : Mode → M (List Stream) β} {fl : Span → Res α} {fl' : Span → Res β}
    (hp : ∀ m, RelocS f v (p m) (p' (m.reloc f))) (hi : ∀ m, RelocL f v (i m) (i' (m.reloc f)))
    (hf : ∀ sp, fl' (f sp) = (fl sp).reloc f v) (sp : Span) :
    RelocS f v (parseNamedMetaItem p i fl sp) (parseNamedMetaItem p' i' fl' (f sp)) := by
  intro s
  simp only [parseNamedMetaItem, Stream.reloc_peekPunct, Stream.reloc_peekDelim]
  split
  · exact ((parsePunct_reloc '=').bind fun _ => hp (.named sp)) s
  · split
    · exact parseDelimitedMetaItem_reloc .paren (.named sp) (hi (.named sp)) s
    · simp [hf]

end

/-! ## Keys -/

theorem leadColon_reloc (ts : List Tok) :
    leadColon (Tok.relocs f ts) = ((leadColon ts).1.map f, Tok.relocs f (leadColon ts).2) := by
  unfold leadColon
  split
  · rename_i h
    match ts, h with
    | .punct _ _ _ :: .punct _ _ _ :: _, h =>
      simp only [Tok.relocs_cons, Tok.reloc, List.cons.injEq, Tok.punct.injEq] at h
      obtain ⟨⟨rfl, rfl, rfl⟩, ⟨rfl, rfl, rfl⟩, rfl⟩ := h
      rfl
  · rename_i h
    split
    · rename_i rest
      exact absurd rfl (h _ _ _ _)
    · rfl

theorem pathLoop_reloc (ts : List Tok) : pathLoop (Tok.relocs f ts) =
    ((pathLoop ts).1.map (fun x => (x.1, f x.2)), (pathLoop ts).2.1, Tok.relocs f (pathLoop ts).2.2) := by
  fun_induction pathLoop ts with
  | case1 s sp sp2 j sp3 rest segs tr rest' h ih =>
    simp only [Tok.relocs_cons, Tok.reloc, pathLoop, ih, h]
    simp
  | case2 s sp rest h =>
    simp only [Tok.relocs_cons, Tok.reloc]
    rw [pathLoop]
    · rfl
    · intro a b c d hr
      match rest, hr with
      | .punct _ _ _ :: .punct _ _ _ :: _, hr =>
        simp only [Tok.relocs_cons, Tok.reloc, List.cons.injEq, Tok.punct.injEq] at hr
        obtain ⟨⟨rfl, rfl, rfl⟩, ⟨rfl, rfl, rfl⟩, rfl⟩ := hr
        exact h _ _ _ _ rfl
  | case3 ts h1 h2 =>
    match ts, h1, h2 with
    | [], _, _ => rfl
    | .ident _ _ :: _, _, h2 => exact absurd rfl (h2 _ _ _)
    | .punct _ _ _ :: _, _, _ => rfl
    | .lit _ _ :: _, _, _ => rfl
    | .group _ _ _ _ :: _, _, _ => rfl

/-! ## The two worlds -/

section
variable {E' E : Env}

/-- Terms about the second world. -/
local macro "in'" t:term : term => `(letI : Env := E'; $t)

variable (R : Relocates E E' f)
include R

theorem Relocates.getD (o o' : Option Span) (h : o' = o.map f) : o'.getD callSite = f (o.getD callSite) := by
  subst h
  cases o
  · exact R.site.symm
  · rfl

theorem joinSpans_reloc (a : Span) (l : List Span) : (in' (joinSpans (f a) (l.map f))) = f (joinSpans a l) := by
  simp only [joinSpans, List.getLast?_map]
  cases l.getLast? with
  | none => rfl
  | some b => simpa using R.join a b a

theorem parseAnyPath_reloc : RelocS f (Path.reloc f) (parseAnyPath) (in' parseAnyPath) := by
  intro s
  simp only [parseAnyPath, Stream.reloc_toks, leadColon_reloc, pathLoop_reloc, Stream.reloc_with]
  rcases hp : pathLoop (leadColon s.toks).2 with ⟨segs, tr, rest⟩
  simp only [List.isEmpty_map]
  split
  · exact congrArg (fun x => (Res.err x, _)) (Stream.reloc_error _ .expectedPath)
  · split
    · exact congrArg (fun x => (Res.err x, _)) (Stream.reloc_error _ .expectedPathSegment)
    · have e : List.map f (leadColon s.toks).1 ++ List.map (·.2) (List.map (fun x => (x.1, f x.2)) segs) =
          List.map f ((leadColon s.toks).1 ++ segs.map (·.2)) := by simp [Function.comp_def]
      simp only [e]
      generalize (leadColon s.toks).1 ++ segs.map (·.2) = l
      refine Prod.ext ?_ rfl
      simp only [Res.reloc_ok, Path.reloc, List.map_map, Function.comp_def]
      congr 2
      rw [← joinSpans_reloc R]
      cases l
      · exact congrArg (@joinSpans E' · []) R.site.symm
      · rfl

theorem inputsSpan_reloc (l : List Stream) : (in' (inputsSpan (l.map (Stream.reloc f)))) = f (inputsSpan l) := by
  cases l with
  | nil => exact R.site.symm
  | cons s rest =>
    simp only [inputsSpan, List.map_cons, List.foldl_map, Stream.reloc_span]
    generalize s.span = a
    induction rest generalizing a with
    | nil => rfl
    | cons t rest ih => simp only [List.foldl_cons]; rw [R.join, ih]

theorem Mode.reloc_toFullSpan (m : Mode) (l : List Stream) :
    (in' ((m.reloc f).toFullSpan (l.map (Stream.reloc f)))) = f (m.toFullSpan l) := by
  cases m
  · rfl
  · exact inputsSpan_reloc R l

theorem closestLoop_reloc (path : Str) (c : Option (Nat × Str)) (l : List Str) :
    (in' (closestLoop path c l)) = closestLoop path c l := by
  induction l generalizing c with
  | nil => rfl
  | cons x l ih => simp only [closestLoop, ih, R.sim, R.simMin]

theorem unknownError_reloc (path : Str) (sp : Span) (l : List Str) :
    (in' (unknownError path (f sp) l)) = (unknownError path sp l).reloc f := by
  simp [unknownError, closestLoop_reloc R, Text.reloc]

theorem checkUnknownAttribute_reloc (path : Str) (sp : Span) (l : List Str) (e : Errors) :
    (in' (checkUnknownAttribute path (f sp) l (e.reloc f))).1 = (checkUnknownAttribute path sp l e).1.reloc f := by
  simp only [checkUnknownAttribute]
  split
  · rfl
  · simp [unknownError_reloc R]

end

/-! ## Loops -/

section
variable {κ κ' : Type} {k : κ → κ'}

theorem forStreams_reloc {b : Nat → M (κ × Stream) Unit} {b' : Nat → M (κ' × Stream) Unit}
    (h : ∀ n, RelocM f (Prod.map k (Stream.reloc f)) id (b n) (b' n)) :
    RelocM f (Prod.map k (List.map (Stream.reloc f))) id (forStreams b) (forStreams b') := by
  rintro ⟨a, l⟩
  simp only [forStreams, Prod.map_apply]
  induction l generalizing a with
  | nil => rfl
  | cons s rest ih =>
    have hb := h (s.toks.length + 1) (a, s)
    simp only [Prod.map_apply] at hb
    simp only [forStreams.go, List.map_cons, Stream.reloc_toks, Tok.relocs_length, hb]
    rcases b (s.toks.length + 1) (a, s) with ⟨_ | _ | _, a', s'⟩
    · simp only [Res.reloc_ok, id, Prod.map_apply, ih a']
      rfl
    · rfl
    · rfl

theorem itemLoop_reloc {b : M (κ × Stream) Unit} {b' : M (κ' × Stream) Unit}
    (h : RelocM f (Prod.map k (Stream.reloc f)) id b b') (n : Nat) :
    RelocM f (Prod.map k (Stream.reloc f)) id (itemLoop b n) (itemLoop b' n) := by
  induction n with
  | zero => exact RelocM.panic
  | succ n ih =>
    intro st
    simp only [itemLoop, Prod.map_snd, Stream.reloc_isEmpty]
    split
    · rfl
    · refine (h.bind fun _ => RelocM.get.bind fun st' => ?_) st
      exact RelocM.ite (by simp) ih ((parseComma_reloc.onSnd k).bind fun _ => ih)

theorem structLoop_reloc {E' E : Env} (R : Relocates E E' f) {b : Str → Span → M (κ × Stream) Unit}
    {b' : Str → Span → M (κ' × Stream) Unit}
    (h : ∀ p sp, RelocM f (Prod.map k (Stream.reloc f)) id (b p sp) (b' p (f sp))) (n : Nat) :
    RelocM f (Prod.map k (Stream.reloc f)) id (structLoop b n) (letI : Env := E'; structLoop b' n) := by
  induction n with
  | zero => exact RelocM.panic
  | succ n ih =>
    intro st
    simp only [structLoop, Prod.map_snd, Stream.reloc_isEmpty]
    split
    · rfl
    · refine (((parseAnyPath_reloc R).onSnd k).bind fun p => (h _ p.span).bind fun _ =>
        RelocM.get.bind fun st' => ?_) st
      exact RelocM.ite (by simp) ih ((parseComma_reloc.onSnd k).bind fun _ => ih)

theorem parseStruct_reloc {E' E : Env} (R : Relocates E E' f) {b : Str → Span → M (κ × Stream) Unit}
    {b' : Str → Span → M (κ' × Stream) Unit}
    (h : ∀ p sp, RelocM f (Prod.map k (Stream.reloc f)) id (b p sp) (b' p (f sp))) :
    RelocM f (Prod.map k (List.map (Stream.reloc f))) id (parseStruct b) (letI : Env := E'; parseStruct b') :=
  forStreams_reloc (structLoop_reloc R h)

theorem onHead_reloc {α β : Type} {v : α → β} {m : M Stream α} {m' : M Stream β} (h : RelocS f v m m') :
    RelocM f (Prod.map k (List.map (Stream.reloc f))) v (onHead m) (onHead m') := by
  rintro ⟨a, _ | ⟨s, rest⟩⟩
  · rfl
  · simp [onHead, h s]

theorem tupleLoop_reloc {b : Nat → M (κ × List Stream) Unit} {b' : Nat → M (κ' × List Stream) Unit}
    (h : ∀ n, RelocM f (Prod.map k (List.map (Stream.reloc f))) id (b n) (b' n)) (rem counter : Nat) :
    RelocM f (Prod.map k (List.map (Stream.reloc f))) id (tupleLoop b rem counter) (tupleLoop b' rem counter) := by
  induction rem generalizing counter with
  | zero =>
    rintro ⟨a, _ | ⟨s, rest⟩⟩
    · rfl
    · simp [tupleLoop]
  | succ rem ih =>
    rintro ⟨a, _ | ⟨s, rest⟩⟩
    · rfl
    · simp only [tupleLoop, Prod.map_apply, List.map_cons, Stream.reloc_isEmpty]
      split
      · rfl
      · refine ((h counter).bind fun _ => RelocM.get.bind fun st' => ?_) (a, s :: rest)
        refine RelocM.ite ?_ (ih (counter + 1)) ((onHead_reloc parseComma_reloc).bind fun _ => ih (counter + 1))
        obtain ⟨a', _ | ⟨s', r'⟩⟩ := st' <;> simp

theorem parseTupleStruct_reloc {b : Nat → M (κ × List Stream) Unit} {b' : Nat → M (κ' × List Stream) Unit}
    (h : ∀ n, RelocM f (Prod.map k (List.map (Stream.reloc f))) id (b n) (b' n)) (len : Nat) :
    RelocM f (Prod.map k (List.map (Stream.reloc f))) id (parseTupleStruct b len) (parseTupleStruct b' len) := by
  have key : ∀ n c, RelocM f (Prod.map k (List.map (Stream.reloc f))) id (parseTupleStruct.go b len n c)
      (parseTupleStruct.go b' len n c) := by
    intro n
    induction n with
    | zero => exact fun c st => rfl
    | succ n ih =>
      intro c st
      simp only [parseTupleStruct.go, tupleLoop_reloc h _ _ st]
      rcases tupleLoop b (len - c) c st with ⟨⟨c', _ | _⟩ | _ | _, a', _ | ⟨s, rest⟩⟩
      · rfl
      · have := ih c' (a', rest)
        simp only [Prod.map_apply] at this
        simp [this]
      all_goals rfl
  rintro ⟨a, l⟩
  simp only [parseTupleStruct, Prod.map_apply, List.length_map]
  exact key l.length 0 (a, l)

@[simp] theorem skipToks_reloc (l : List Tok) : skipToks (Tok.relocs f l) = Tok.relocs f (skipToks l) := by
  induction l with
  | nil => rfl
  | cons t l ih =>
    simp only [skipToks, Tok.relocs_cons, Tok.reloc_isComma]
    split
    · rfl
    · exact ih

@[simp] theorem skipMetaItem_reloc (s : Stream) : skipMetaItem (s.reloc f) = (skipMetaItem s).reloc f := by
  simp [skipMetaItem, Stream.reloc]

@[simp] theorem skipAll_reloc (l : List Stream) :
    skipAll (l.map (Stream.reloc f)) = (skipAll l).map (Stream.reloc f) := by
  simp [skipAll, Stream.reloc, Function.comp_def]

@[simp] theorem forkInputs_reloc (l : List Stream) :
    forkInputs (l.map (Stream.reloc f)) = (forkInputs l).map (Stream.reloc f) := by
  simp [forkInputs, Function.comp_def]

theorem eofAll_reloc : RelocL f id eofAll eofAll := by
  intro l
  induction l with
  | nil => rfl
  | cons s rest ih =>
    simp only [eofAll, List.map_cons, parseEof_reloc s]
    rcases parseEof s with ⟨_ | _ | _, s'⟩
    · simp only [Res.reloc_ok, id]
      rw [ih]
      rfl
    · rfl
    · rfl

end

/-! ## Collecting errors -/

def Acc.reloc {γ γ' : Type} (f : Span → Span) (k : γ → γ') (a : Acc γ) : Acc γ' := ⟨k a.val, a.errs.reloc f⟩

section
variable {α β γ γ' : Type} {v : α → β} {k : γ → γ'}

theorem runAcc_reloc {init : γ} {init' : γ'} (hi : k init = init') {m : M (Acc γ × List Stream) Unit}
    {m' : M (Acc γ' × List Stream) Unit}
    (h : RelocM f (Prod.map (Acc.reloc f k) (List.map (Stream.reloc f))) id m m') :
    RelocL f k (runAcc init m) (runAcc init' m') := by
  subst hi
  intro l
  have := h (⟨init, Errors.new⟩, l)
  simp only [Prod.map_apply, Acc.reloc, Errors.reloc_new] at this
  simp only [runAcc, this]
  rcases m (⟨init, Errors.new⟩, l) with ⟨_ | _ | _, acc, l'⟩
  · exact congrArg (·, _) (Errors.reloc_intoResult k acc.errs acc.val)
  · rfl
  · rfl

theorem runAccPush_reloc {init : γ} {init' : γ'} (hi : k init = init') {m : M (Acc γ × List Stream) Unit}
    {m' : M (Acc γ' × List Stream) Unit}
    (h : RelocM f (Prod.map (Acc.reloc f k) (List.map (Stream.reloc f))) id m m') :
    RelocL f k (runAccPush init m) (runAccPush init' m') := by
  subst hi
  intro l
  have := h (⟨init, Errors.new⟩, l)
  simp only [Prod.map_apply, Acc.reloc, Errors.reloc_new] at this
  simp only [runAccPush, this]
  rcases m (⟨init, Errors.new⟩, l) with ⟨_ | _ | _, acc, l'⟩
  · exact congrArg (·, _) (Errors.reloc_intoResult k acc.errs acc.val)
  · simp only [Res.reloc_err, Prod.map_apply, Acc.reloc, Errors.reloc_pushSyn]
    exact congrArg (·, _) (Errors.reloc_intoResult k _ acc.val)
  · rfl

theorem stepPush_reloc {m : M Stream α} {m' : M Stream β} {p : Acc γ → α → Stream → Stream → Acc γ}
    {p' : Acc γ' → β → Stream → Stream → Acc γ'} (h : RelocS f v m m')
    (hp : ∀ acc a s s', p' (acc.reloc f k) (v a) (s.reloc f) (s'.reloc f) = (p acc a s s').reloc f k) :
    RelocM f (Prod.map (Acc.reloc f k) (Stream.reloc f)) id (stepPush m p) (stepPush m' p') := by
  rintro ⟨acc, s⟩
  simp only [stepPush, Prod.map_apply, h s]
  rcases m s with ⟨_ | _ | _, s'⟩
  · simp [hp]
  · simp [Acc.reloc]
  · rfl

theorem stepSkip_reloc {κ κ' : Type} {k : κ → κ'} :
    RelocM f (Prod.map k (Stream.reloc f)) id (stepSkip : M (κ × Stream) Unit) stepSkip := by
  rintro ⟨acc, s⟩
  simp [stepSkip]

end

section
variable {α β : Type} {v : α → β}

@[simp] theorem FieldStatus.isNone_map (st : FieldStatus α) : (st.map v).isNone = st.isNone := by cases st <;> rfl
@[simp] theorem FieldStatus.isSome_map (st : FieldStatus α) : (st.map v).isSome = st.isSome := by cases st <;> rfl

theorem parseNamedItemWith_reloc {m : M Stream α} {m' : M Stream β} (h : RelocS f v m m') (name : Str) (sp : Span)
    (st : FieldStatus α) (errs : Errors) (s : Stream) :
    (st.map v).parseNamedItemWith m' name (f sp) (errs.reloc f) (s.reloc f) =
      ((st.parseNamedItemWith m name sp errs s).1.reloc f id,
        (st.parseNamedItemWith m name sp errs s).2.1.map v,
        (st.parseNamedItemWith m name sp errs s).2.2.1.reloc f,
        (st.parseNamedItemWith m name sp errs s).2.2.2.reloc f) := by
  have e : (if st.isNone then errs.reloc f else (errs.reloc f).push (f sp) (.duplicateAttr name)) =
      Errors.reloc f (if st.isNone then errs else errs.push sp (.duplicateAttr name)) := by
    split
    · rfl
    · exact Errors.reloc_push errs sp (.duplicateAttr name)
  simp only [FieldStatus.parseNamedItemWith, FieldStatus.isNone_map, h s, e]
  rcases m s with ⟨_ | _ | _, s'⟩
  · cases st <;> rfl
  · cases st <;> simp [FieldStatus.isNone, FieldStatus.map]
  · rfl

theorem parseUnnamedItemWith_reloc {m : M Stream α} {m' : M Stream β} (h : RelocS f v m m')
    (st : FieldStatus α) (errs : Errors) (s : Stream) :
    (st.map v).parseUnnamedItemWith m' (errs.reloc f) (s.reloc f) =
      ((st.parseUnnamedItemWith m errs s).1.reloc f id,
        (st.parseUnnamedItemWith m errs s).2.1.map v,
        (st.parseUnnamedItemWith m errs s).2.2.1.reloc f,
        (st.parseUnnamedItemWith m errs s).2.2.2.reloc f) := by
  simp only [FieldStatus.parseUnnamedItemWith, h s]
  rcases m s with ⟨_ | _ | _, s'⟩
  · rfl
  · simp [FieldStatus.map]
  · rfl

end
end Deluxe
