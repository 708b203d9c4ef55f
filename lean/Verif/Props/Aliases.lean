import Verif.Props.TrailingBrace
import Verif.Props.RestField
/-!
# C122: it does not matter under which of its names an item is written
-/
namespace Deluxe

variable {V : Type}

/-! ## Specification -/

/-- The same items, except that keys are replaced by others as `R` allows.  Nothing is said about the rest of the
input: items that keep their key, or all tokens from some place on, are arbitrary. -/
inductive Respelt [Env] (R : Str → Str → Prop) : List Tok → List Tok → Prop
  | same (ts : List Tok) : Respelt R ts ts
  | keep {v c r r'} : NoComma v → Comma c → Respelt R r r' → Respelt R (v ++ c :: r) (v ++ c :: r')
  | last {segs segs' sp v v' vt} : KeyToks segs sp v vt → KeyToks segs' sp v' vt →
      R (keyString segs) (keyString segs') → NoComma vt → Respelt R v v'
  | more {segs segs' sp v v' vt c r r'} : KeyToks segs sp v vt → KeyToks segs' sp v' vt →
      R (keyString segs) (keyString segs') → NoComma vt → Comma c → Respelt R r r' →
      Respelt R (v ++ c :: r) (v' ++ c :: r')

/-- The same for several lists, such as those of several attributes. -/
inductive RespeltAll [Env] (R : Str → Str → Prop) : List Stream → List Stream → Prop
  | nil : RespeltAll R [] []
  | cons {ts ts' sc u l l'} : Respelt R ts ts' → RespeltAll R l l' →
      RespeltAll R (⟨ts, sc, u⟩ :: l) (⟨ts', sc, u⟩ :: l')

/-- The result, with all messages, is the same whichever of the keys is written. -/
def Blind [Env] (R : Str → Str → Prop) {α : Type} (q : M (List Stream) α) : Prop :=
  ∀ l l', RespeltAll R l l' → (q l).1 = (q l').1

/-! ## Items -/

theorem SegToks.noComma {ss ts} (h : SegToks ss ts) : NoComma ts := by
  induction h with
  | one s sp => simp [NoComma, Comma]
  | cons s sp a b j _ ih =>
    intro t ht
    simp only [List.mem_cons] at ht
    rcases ht with rfl | rfl | rfl | h
    · simp [Comma]
    · simp [Comma]
    · simp [Comma]
    · exact ih t h

theorem PathToks.noComma {ld ss ts} (h : PathToks ld ss ts) : NoComma ts := by
  cases h with
  | plain h => exact h.noComma
  | lead a b j h =>
    intro t ht
    simp only [List.mem_cons] at ht
    rcases ht with rfl | rfl | h'
    · simp [Comma]
    · simp [Comma]
    · exact h.noComma t h'

section
variable [Env]

theorem KeyToks.noComma {segs sp v vt} (h : KeyToks segs sp v vt) (hn : NoComma vt) : NoComma v := by
  cases h with
  | mk hp _ =>
    intro t ht
    rcases List.mem_append.1 ht with h | h
    · exact hp.noComma t h
    · exact hn t h

theorem KeyToks.nonempty {segs sp v vt} (h : KeyToks segs sp v vt) : v ≠ [] := by
  cases h with
  | mk hp _ => simp [hp.nonempty]

/-- What is asked of the parser of an item; `view` is what matters of the result. -/
structure Unseeing (R : Str → Str → Prop) {β γ : Type} (view : β → γ) (p : M Stream β) : Prop where
  good : Good p
  local_ : Local p
  key : ∀ {segs segs' sp v v' vt rest} (sc : Span) (u : Option Span), KeyToks segs sp v vt → KeyToks segs' sp v' vt →
    R (keyString segs) (keyString segs') → NoComma vt → Boundary rest →
    (p ⟨v ++ rest, sc, u⟩).2 = (p ⟨v' ++ rest, sc, u⟩).2 ∧
      (p ⟨v ++ rest, sc, u⟩).1.map view = (p ⟨v' ++ rest, sc, u⟩).1.map view

omit [Env] in
theorem reads_exists {β : Type} {p : M Stream β} (hp : Good p) (s : Stream) : ∃ rs fatal s1, Reads p s rs fatal s1 := by
  obtain ⟨rs, fatal, l', h⟩ := ReadsAll.exists hp [s]
  cases h with
  | cons h1 h2 => exact ⟨_, _, _, h1⟩
  | fail h => exact ⟨_, _, _, h⟩

/-- Two lists of which the same is read. -/
def SameReads {β γ : Type} (view : β → γ) (p : M Stream β) (s s' : Stream) : Prop :=
  ∃ rs rs' fatal s1 s1', Reads p s rs fatal s1 ∧ Reads p s' rs' fatal s1' ∧
    rs.map (fun x => view x.1) = rs'.map (fun x => view x.1)

omit [Env] in
/-- After items read alike. -/
theorem sameReads_step {β γ : Type} {view : β → γ} {p : M Stream β} {s s' : Stream} (hs : s.toks ≠ []) (hs' : s'.toks ≠ [])
    {r r' : Res β} {v1 : List Tok} {c : Tok} {t t' : List Tok} {sc : Span} {u1 : Option Span} (hc : Comma c)
    (hv : NoComma v1) (h : p s = (r, ⟨v1 ++ c :: t, sc, u1⟩)) (h' : p s' = (r', ⟨v1 ++ c :: t', sc, u1⟩))
    (hr : r.map view = r'.map view) (hp : r ≠ .panic) (ih : SameReads view p ⟨t, sc, u1⟩ ⟨t', sc, u1⟩) :
    SameReads view p s s' := by
  cases r with
  | panic => exact absurd rfl hp
  | err e =>
    cases r' with
    | err e' =>
      simp only [Res.map, Res.err.injEq] at hr
      subst hr
      exact ⟨_, _, _, _, _, .failItem hs h, .failItem hs' h', rfl⟩
    | ok b => cases hr
    | panic => cases hr
  | ok b =>
    cases r' with
    | err e' => cases hr
    | panic => cases hr
    | ok b' =>
      simp only [Res.map, Res.ok.injEq] at hr
      cases v1 with
      | nil =>
        obtain ⟨rs, rs', fatal, s1, s1', h1, h2, h3⟩ := ih
        exact ⟨_, _, _, _, _, .more hs h rfl hc h1, .more hs' h' rfl hc h2, by simp [hr, h3]⟩
      | cons x v1 =>
        have hx := hv x List.mem_cons_self
        exact ⟨_, _, _, _, _, .failSep hs h rfl hx, .failSep hs' h' rfl hx, by simp [hr]⟩

theorem Respelt.reads {R : Str → Str → Prop} {β γ : Type} {view : β → γ} {p : M Stream β} (hp : Unseeing R view p)
    {ts ts' : List Tok} (h : Respelt R ts ts') (sc : Span) (u : Option Span) :
    SameReads view p ⟨ts, sc, u⟩ ⟨ts', sc, u⟩ := by
  induction h generalizing u with
  | same ts =>
    obtain ⟨rs, fatal, s1, h⟩ := reads_exists hp.good ⟨ts, sc, u⟩
    exact ⟨_, _, _, _, _, h, h, rfl⟩
  | @keep v c r r' hn hc _ ih =>
    obtain ⟨res, v1, u1, hsuf, hl⟩ := hp.local_ v c sc u hn hc
    exact sameReads_step (by simp) (by simp) hc (hn.suffix hsuf) (hl r) (hl r') rfl
      (by have := (hp.good ⟨v ++ c :: r, sc, u⟩).1; rwa [hl] at this) (ih u1)
  | @last segs segs' sp v v' vt h1 h2 h3 h4 =>
    obtain ⟨e1, e2⟩ := hp.key sc u h1 h2 h3 h4 (.inl rfl)
    simp only [List.append_nil] at e1 e2
    have g1 := (hp.good ⟨v, sc, u⟩).1
    cases hq : p ⟨v, sc, u⟩ with
    | mk r s1 =>
      cases hq' : p ⟨v', sc, u⟩ with
      | mk r' s1' =>
        rw [hq] at e1 e2 g1
        rw [hq'] at e1 e2
        dsimp only at e1 e2 g1
        subst e1
        cases r with
        | panic => exact absurd rfl g1
        | err e =>
          cases r' with
          | err e' =>
            simp only [Res.map, Res.err.injEq] at e2
            subst e2
            exact ⟨_, _, _, _, _, .failItem h1.nonempty hq, .failItem h2.nonempty hq', rfl⟩
          | ok b => cases e2
          | panic => cases e2
        | ok b =>
          cases r' with
          | err e' => cases e2
          | panic => cases e2
          | ok b' =>
            simp only [Res.map, Res.ok.injEq] at e2
            cases ht : s1.toks with
            | nil => exact ⟨_, _, _, _, _, .last h1.nonempty hq ht, .last h2.nonempty hq' ht, by simp [e2]⟩
            | cons t rest =>
              by_cases hc : Comma t
              · obtain ⟨rs, fatal, s2, hr⟩ := reads_exists hp.good { s1 with toks := rest }
                exact ⟨_, _, _, _, _, .more h1.nonempty hq ht hc hr, .more h2.nonempty hq' ht hc hr, by simp [e2]⟩
              · exact ⟨_, _, _, _, _, .failSep h1.nonempty hq ht hc, .failSep h2.nonempty hq' ht hc, by simp [e2]⟩
  | @more segs segs' sp v v' vt c r r' h1 h2 h3 h4 hc _ ih =>
    have hn := h1.noComma h4
    have hn' := h2.noComma h4
    obtain ⟨res, v1, u1, hsuf, hl⟩ := hp.local_ v c sc u hn hc
    obtain ⟨res', v1', u1', hsuf', hl'⟩ := hp.local_ v' c sc u hn' hc
    obtain ⟨e1, e2⟩ := hp.key sc u h1 h2 h3 h4 (.inr ⟨c, r, rfl, hc⟩)
    rw [hl, hl'] at e1 e2
    simp only [Stream.mk.injEq, List.append_cancel_right_eq, true_and] at e1 e2
    obtain ⟨rfl, rfl⟩ := e1
    exact sameReads_step (by simp) (by simp) hc (hn.suffix hsuf) (hl r) (hl' r') e2
      (by have := (hp.good ⟨v ++ c :: r, sc, u⟩).1; rwa [hl] at this) (ih u1)

theorem RespeltAll.reads {R : Str → Str → Prop} {β γ : Type} {view : β → γ} {p : M Stream β} (hp : Unseeing R view p)
    {l l' : List Stream} (h : RespeltAll R l l') :
    ∃ rs rs' fatal l1 l1', ReadsAll p l rs fatal l1 ∧ ReadsAll p l' rs' fatal l1' ∧
      rs.map (fun x => view x.1) = rs'.map (fun x => view x.1) := by
  induction h with
  | nil => exact ⟨_, _, _, _, _, .nil, .nil, rfl⟩
  | @cons ts ts' sc u l l' h _ ih =>
    obtain ⟨rs, rs', fatal, s1, s1', h1, h2, h3⟩ := h.reads hp sc u
    cases fatal with
    | some e => exact ⟨_, _, _, _, _, .fail h1, .fail h2, h3⟩
    | none =>
      obtain ⟨rs2, rs2', fatal, l1, l1', g1, g2, g3⟩ := ih
      exact ⟨_, _, _, _, _, .cons h1 g1, .cons h2 g2, by simp [h3, g3]⟩

theorem RespeltAll.fork {R : Str → Str → Prop} {l l' : List Stream} (h : RespeltAll R l l') :
    RespeltAll R (forkInputs l) (forkInputs l') := by
  induction h with
  | nil => exact .nil
  | cons h _ ih => exact .cons h ih

/-- Readers that see the key first. -/
theorem keyed_unseeing {R : Str → Str → Prop} {β γ : Type} {view : β → γ} {q : Str → Span → M Stream β}
    (hg : ∀ k sp, Good (q k sp)) (hl : ∀ k sp, Local (q k sp))
    (hq : ∀ k k' sp, R k k' → ∀ s, (q k sp s).2 = (q k' sp s).2 ∧ (q k sp s).1.map view = (q k' sp s).1.map view) :
    Unseeing R view (keyed q) where
  good := keyed_good hg
  local_ := by
    have : keyed q = (parseAnyPath >>= fun p => q (keyString p.segs) p.span) := by
      funext s
      simp only [keyed, Bind.bind, M.bind]
      split <;> simp_all
    rw [this]
    exact parseAnyPath_local.bind fun p => hl _ _
  key sc u h1 h2 hR _ hr := by
    rw [keyed_key q h1 hr, keyed_key q h2 hr]
    exact hq _ _ _ hR _

/-! ## Structures -/

omit [Env] in
theorem Errors.eq_of_toList {a b : Errors} (h : a.toList = b.toList) : a = b := by
  obtain ⟨a⟩ := a
  obtain ⟨b⟩ := b
  cases a <;> cases b <;> simp_all [Errors.toList, SynErr.toList]
  rename_i x y
  cases x; cases y; simp_all

omit [Env] in
theorem skip_local {β : Type} (b : β) : Local (fun s => (.ok b, skipMetaItem s) : M Stream β) := by
  intro v c sc u hv hc
  exact ⟨.ok b, [], u, List.nil_suffix, fun rest => by
    simp only [skipMetaItem, skipToks_boundary hv (.inr ⟨c, rest, rfl, hc⟩), List.nil_append]⟩

omit [Env] in
theorem recover_local {α : Type} {p : M Stream α} (h : Local p) : Local (recover p) := by
  intro v c sc u hv hc
  obtain ⟨r, v', u', h1, h2⟩ := h v c sc u hv hc
  cases r with
  | ok a => exact ⟨.ok (.ok a), v', u', h1, fun rest => by simp only [recover, h2]⟩
  | err e =>
    exact ⟨.ok (.error e), [], u', List.nil_suffix, fun rest => by
      simp only [recover, h2, skipMetaItem, skipToks_boundary (hv.suffix h1) (.inr ⟨c, rest, rfl, hc⟩), List.nil_append]⟩
  | panic => exact ⟨.panic, v', u', h1, fun rest => by simp only [recover, h2]⟩

/-- What a structure does with an item: which field it is for and its value, or the messages about its key. -/
def SItem.view (check : Bool) (allowed : List Str) : SItem V → (Nat × Str × Span × Except SynErr V) ⊕ List Msg
  | .field i n sp x => .inl (i, n, sp, x)
  | .other k sp => .inr (unknownMsgs check allowed k sp)

theorem view_msgs {check : Bool} {allowed : List Str} {bs bs' : List (SItem V)}
    (h : bs.map (SItem.view check allowed) = bs'.map (SItem.view check allowed)) (seen : List Nat) :
    itemMsgs check allowed seen bs = itemMsgs check allowed seen bs' ∧ ∀ i, given i bs = given i bs' := by
  induction bs generalizing bs' seen with
  | nil =>
    cases bs' with
    | nil => exact ⟨rfl, fun _ => rfl⟩
    | cons b bs' => simp at h
  | cons b bs ih =>
    cases bs' with
    | nil => simp at h
    | cons b' bs' =>
      simp only [List.map_cons, List.cons.injEq] at h
      obtain ⟨h1, h2⟩ := h
      cases b with
      | field i n sp x =>
        cases b' with
        | other k sp => cases h1
        | field i' n' sp' x' =>
          simp only [SItem.view, Sum.inl.injEq, Prod.mk.injEq] at h1
          obtain ⟨rfl, rfl, rfl, rfl⟩ := h1
          obtain ⟨e1, e2⟩ := ih h2 (i :: seen)
          exact ⟨by simp only [itemMsgs, e1], fun j => by simp only [given, e2]⟩
      | other k sp =>
        cases b' with
        | field i' n' sp' x' => cases h1
        | other k' sp' =>
          simp only [SItem.view, Sum.inr.injEq] at h1
          obtain ⟨e1, e2⟩ := ih h2 seen
          exact ⟨by simp only [itemMsgs, h1, e1], fun j => by simp only [given, e2]⟩

/-- The keys are names of the same field, or names of no field that are not reported as unknown. -/
structure SameField (d : Fields V) (allowed : List Str) (pre : Str) (validate : Bool) (R : Str → Str → Prop) : Prop where
  own : ∀ k k', R k k' → ∀ f i, Owns d.fields pre k f i ↔ Owns d.fields pre k' f i
  known : ∀ k k', R k k' → (∀ f i, ¬ Owns d.fields pre k f i) → d.allowUnknown = false → validate = true →
    k ∈ allowed ∧ k' ∈ allowed

theorem structItem_unseeing {d : Fields V} (hg : FieldsGood d.fields) (hl : ∀ f ∈ d.fields, f.item.Local)
    {allowed : List Str} {pre : Str} {validate : Bool} {R : Str → Str → Prop} (h : SameField d allowed pre validate R) :
    Unseeing R (SItem.view (!d.allowUnknown && validate) allowed) (structItem d.fields pre) := by
  have hgood := structItem_good hg.named pre
  refine { (keyed_unseeing (R := R) (view := SItem.view (!d.allowUnknown && validate) allowed)
    (q := structValue d.fields pre) (fun k sp => ?_) (fun k sp => ?_) (fun k k' sp hR s => ?_)) with }
  · unfold structValue
    split
    · rename_i f i heq
      have ho := (owner_some _ _ _ _ _).1 heq
      exact Good.map _ (recover_good (hg.named f ho.mem.1 ho.mem.2.1 _ _))
    · exact fun s => ⟨by simp, skipMetaItem_adv s⟩
  · unfold structValue
    split
    · rename_i f i heq
      have ho := (owner_some _ _ _ _ _).1 heq
      exact (recover_local ((hl f ho.mem.1).named _ _)).map _
    · exact skip_local _
  · unfold structValue
    cases hk : (stripPrefix pre k).bind (findArm d.fields) with
    | some x =>
      obtain ⟨f, i⟩ := x
      rw [(owner_some _ _ _ _ _).2 ((h.own k k' hR f i).1 ((owner_some _ _ _ _ _).1 hk))]
      exact ⟨rfl, rfl⟩
    | none =>
      have hno := (owner_none _ _ _).1 hk
      rw [(owner_none _ _ _).2 fun f i ho => hno f i ((h.own k k' hR f i).2 ho)]
      refine ⟨rfl, ?_⟩
      have hmsg : unknownMsgs (!d.allowUnknown && validate) allowed k sp =
          unknownMsgs (!d.allowUnknown && validate) allowed k' sp := by
        unfold unknownMsgs
        by_cases hc : d.allowUnknown = false ∧ validate = true
        · obtain ⟨h1, h2⟩ := h.known k k' hR hno hc.1 hc.2
          simp [h1, h2]
        · have : (!d.allowUnknown && validate) = false := by
            cases hu : d.allowUnknown <;> cases hv : validate <;> simp_all
          simp [this]
      simp only [Res.map, SItem.view, hmsg]

theorem flatOuts_blind {fs : List (Field V)} {pre : Str} {k : Span} {allowed : List Str} {R : Str → Str → Prop}
    (h : ∀ f ∈ fs, f.flatParsable = true → Blind R (f.flatCall pre k allowed)) {l l' : List Stream} (hr : RespeltAll R l l') :
    flatOuts pre k allowed l fs = flatOuts pre k allowed l' fs := by
  induction fs with
  | nil => rfl
  | cons f fs ih =>
    simp only [flatOuts]
    rw [ih fun g hg => h g (List.mem_cons_of_mem _ hg)]
    congr 1
    split
    · rename_i hp
      have hb := h f List.mem_cons_self hp
      split
      · rw [hb _ _ hr.fork]
      · rw [hb _ _ hr]
    · rfl

/-- **C122.**  The result of a structure, with all its messages, is the same under whichever of its names an item is
written, for any input.  Its flat fields are asked to make no difference between the keys either. -/
theorem c122_struct (d : Fields V) (hg : FieldsGood d.fields) (hl : ∀ f ∈ d.fields, f.item.Local) (allowed : List Str)
    (k : Span) (pre : Str) (validate : Bool) {R : Str → Str → Prop} (h : SameField d allowed pre validate R)
    (hfl : ∀ f ∈ d.fields, f.flatParsable = true → Blind R (f.flatCall pre k allowed)) :
    Blind R (namedFlat d allowed (.named k) pre validate) := by
  intro l l' hr
  have hr' : RespeltAll R (if d.fields.any (·.flatParsable) then forkInputs l else l)
      (if d.fields.any (·.flatParsable) then forkInputs l' else l') := by
    split
    · exact hr.fork
    · exact hr
  obtain ⟨rs, rs', fatal, l1, l1', h1, h2, h3⟩ := hr'.reads (structItem_unseeing hg hl h)
  obtain ⟨e, x, q1, q2, -⟩ := namedFlat_reads d hg allowed (.named k) pre validate h1
  obtain ⟨e', x', q1', q2', -⟩ := namedFlat_reads d hg allowed (.named k) pre validate h2
  have hv := view_msgs (check := !d.allowUnknown && validate) (allowed := allowed) (bs := rs.map (·.1))
    (bs' := rs'.map (·.1)) (by simpa [Function.comp_def] using h3)
  have hs : flatSlots d allowed pre k l (rs.map (·.1)) = flatSlots d allowed pre k l' (rs'.map (·.1)) := by
    unfold flatSlots itemSlots
    rw [flatOuts_blind hfl hr]
    congr 2
    funext i
    rw [(hv []).2 i]
  have hm : flatMsgs d allowed pre k l = flatMsgs d allowed pre k l' := by
    unfold flatMsgs
    rw [flatOuts_blind hfl hr]
  have hk : ∀ l, (Mode.named k).toFullSpan l = k := fun _ => rfl
  have he : e = e' := by
    apply Errors.eq_of_toList
    rw [q2, q2']
    simp only [hk]
    rw [hs, hm, (hv []).1]
  rw [q1, q1', he]
  simp only [hk]
  rw [hs]

/-! ## Append and rest fields -/

theorem spanItem_local {α : Type} {p : M Stream α} (h : Local p) : Local (spanItem p) := by
  intro v c sc u hv hc
  obtain ⟨r, v', u', h1, h2⟩ := h v c sc u hv hc
  have hsp : ∀ (v : List Tok) u rest, Stream.span ⟨v ++ c :: rest, sc, u⟩ = Stream.span ⟨v ++ [c], sc, u⟩ := by
    intro v u rest
    cases v <;> rfl
  have hi : ∀ (v v' : List Tok) u u' rest, itemSpan ⟨v ++ c :: rest, sc, u⟩ ⟨v' ++ c :: rest, sc, u'⟩ =
      itemSpan ⟨v ++ [c], sc, u⟩ ⟨v' ++ [c], sc, u'⟩ := by
    intro v v' u u' rest
    unfold itemSpan
    rw [hsp v u rest, hsp v' u' rest]
  cases r with
  | ok a =>
    exact ⟨.ok (.ok a, itemSpan ⟨v ++ [c], sc, u⟩ ⟨v' ++ [c], sc, u'⟩), v', u', h1, fun rest => by
      simp only [spanItem, h2]; rw [hi]⟩
  | err e =>
    refine ⟨.ok (.error e, itemSpan ⟨v ++ [c], sc, u⟩ ⟨[] ++ [c], sc, u'⟩), [], u', List.nil_suffix, fun rest => ?_⟩
    have hk : skipMetaItem ⟨v' ++ c :: rest, sc, u'⟩ = ⟨[] ++ c :: rest, sc, u'⟩ := by
      simp only [skipMetaItem, skipToks_boundary (hv.suffix h1) (.inr ⟨c, rest, rfl, hc⟩), List.nil_append]
    simp only [spanItem, h2]
    rw [hk, hi]
  | panic => exact ⟨.panic, v', u', h1, fun rest => by simp only [spanItem, h2]⟩

theorem appendItem_unseeing {α : Type} {p : Str → Span → M Stream α} (hg : ∀ k sp, Good (p k sp))
    (hl : ∀ k sp, Local (p k sp)) (hn : ∀ k k' sp, p k sp = p k' sp) {names : List Str} {R : Str → Str → Prop}
    (h : ∀ k k', R k k' → (k ∈ names ↔ k' ∈ names)) : Unseeing R id (appendItem names p) := by
  refine keyed_unseeing (fun k sp => ?_) (fun k sp => ?_) (fun k k' sp hR s => ?_)
  · split
    · exact Good.map _ (spanItem_good (hg _ _))
    · exact skipItem_good _
  · split
    · exact (spanItem_local (hl _ _)).map _
    · exact skip_local _
  · have := h k k' hR
    by_cases hk : k ∈ names
    · rw [if_pos hk, if_pos (this.1 hk), hn k k']
      exact ⟨rfl, rfl⟩
    · rw [if_neg hk, if_neg fun h => hk (this.2 h)]
      exact ⟨rfl, rfl⟩

/-- A loop over items that are read alike ends alike. -/
theorem fold_blind {R : Str → Str → Prop} {β κ : Type} {p : M Stream β} (hp : Unseeing R id p) (g : κ → β → κ) (k : κ)
    {l l' : List Stream} (hr : RespeltAll R l l') :
    ∃ r k' l1 l1', forStreams (itemLoop (foldStep p fun k b _ _ => g k b)) (k, l) = (r, (k', l1)) ∧
      forStreams (itemLoop (foldStep p fun k b _ _ => g k b)) (k, l') = (r, (k', l1')) := by
  obtain ⟨rs, rs', fatal, l1, l1', h1, h2, h3⟩ := hr.reads hp
  refine ⟨stopped fatal, foldReads (fun k b _ _ => g k b) k rs, l1, l1',
    (fold_iff hp.good _ _ _ _ _ _).2 ⟨rs, fatal, h1, rfl, rfl⟩, (fold_iff hp.good _ _ _ _ _ _).2 ⟨rs', fatal, h2, rfl, ?_⟩⟩
  rw [foldReads_map, foldReads_map]
  congr 1

/-- **C122.**  A sequence with `append` gets the same values, or messages, if the keys are both among its names or both
not. -/
theorem c122_append_sequence {α : Type} (d : Dict α) (hg : ∀ n sp, Good (d.named n sp)) (hl : ∀ n sp, Local (d.named n sp))
    (hn : ∀ n n' sp, d.named n sp = d.named n' sp) (names : List Str) {R : Str → Str → Prop}
    (h : ∀ k k', R k k' → (k ∈ names ↔ k' ∈ names)) : Blind R (seqAppend d names) := by
  intro l l' hr
  simp only [seqAppend]
  rw [appendStep_eq d.named names pushBack (fun k b => seqAdd k b.1) (fun _ _ => seqSpanStep_eq _)]
  obtain ⟨r, k', l1, l1', h1, h2⟩ := fold_blind (appendItem_unseeing hg hl hn h)
    (onSome fun k (b : Except SynErr α × Span) => seqAdd k b.1) ⟨[], Errors.new⟩ hr
  simp only [runAccPush, h1, h2]
  cases r <;> rfl

/-- **C122.**  The same for sets. -/
theorem c122_append_set {α : Type} [DecidableEq α] (d : Dict α) (hg : ∀ n sp, Good (d.named n sp))
    (hl : ∀ n sp, Local (d.named n sp)) (hn : ∀ n n' sp, d.named n sp = d.named n' sp) (names : List Str)
    {R : Str → Str → Prop} (h : ∀ k k', R k k' → (k ∈ names ↔ k' ∈ names)) : Blind R (setAppend d names) := by
  intro l l' hr
  simp only [setAppend]
  rw [appendStep_eq d.named names setInsert setAdd (fun _ _ => setStep_eq _)]
  obtain ⟨r, k', l1, l1', h1, h2⟩ := fold_blind (appendItem_unseeing hg hl hn h) (onSome setAdd) ⟨[], Errors.new⟩ hr
  simp only [runAcc, h1, h2]
  cases r <;> rfl

/-- The keys of a map are read like the keys of items. -/
def ReadsKeys {κ : Type} (kd : Dict κ) (keyStr : κ → Str) : Prop :=
  ∀ {segs sp v vt rest} (sc : Span) (u : Option Span), KeyToks segs sp v vt → Boundary rest →
    ∃ key, kd.parse .unnamed ⟨v ++ rest, sc, u⟩ = (.ok key, ⟨vt ++ rest, sc, u⟩) ∧ keyStr key = keyString segs

theorem entryItem_local {κ ν : Type} {kp : M Stream κ} {keyStr : κ → Str} {vp : Str → Span → M Stream ν} (hk : Local kp)
    (hv : ∀ k sp, Local (vp k sp)) (exclude : List Str) : Local (entryItem kp keyStr vp exclude id) := by
  intro v c sc u hn hc
  obtain ⟨r, v1, u1, h1, h2⟩ := hk v c sc u hn hc
  have hsp : ∀ (v : List Tok) u rest, Stream.span ⟨v ++ c :: rest, sc, u⟩ = Stream.span ⟨v ++ [c], sc, u⟩ := by
    intro v u rest
    cases v <;> rfl
  have hi : ∀ (v v' : List Tok) u u' rest, itemSpan ⟨v ++ c :: rest, sc, u⟩ ⟨v' ++ c :: rest, sc, u'⟩ =
      itemSpan ⟨v ++ [c], sc, u⟩ ⟨v' ++ [c], sc, u'⟩ := by
    intro v v' u u' rest
    unfold itemSpan
    rw [hsp v u rest, hsp v' u' rest]
  cases r with
  | err e => exact ⟨.err e, v1, u1, h1, fun rest => by simp only [entryItem, h2]⟩
  | panic => exact ⟨.panic, v1, u1, h1, fun rest => by simp only [entryItem, h2]⟩
  | ok key =>
    by_cases hx : keyStr key ∈ exclude
    · refine ⟨.ok none, [], u1, List.nil_suffix, fun rest => ?_⟩
      simp only [entryItem, h2, if_pos hx, skipMetaItem, skipToks_boundary (hn.suffix h1) (.inr ⟨c, rest, rfl, hc⟩),
        List.nil_append]
    · obtain ⟨r2, v2, u2, h3, h4⟩ := hv (keyStr key) (Stream.span ⟨v ++ [c], sc, u⟩) v1 c sc u1 (hn.suffix h1) hc
      cases r2 with
      | ok x =>
        refine ⟨.ok (some (key, .ok x, itemSpan ⟨v ++ [c], sc, u⟩ ⟨v1 ++ [c], sc, u1⟩)), v2, u2, h3.trans h1, fun rest => ?_⟩
        simp only [entryItem, h2, if_neg hx]
        rw [hsp, h4, hi]
      | err e =>
        refine ⟨.ok (some (key, .error e, itemSpan ⟨v ++ [c], sc, u⟩ ⟨v1 ++ [c], sc, u1⟩)), v2, u2, h3.trans h1, fun rest => ?_⟩
        simp only [entryItem, h2, if_neg hx]
        rw [hsp, h4, hi]
        rfl
      | panic =>
        refine ⟨.panic, v2, u2, h3.trans h1, fun rest => ?_⟩
        simp only [entryItem, h2, if_neg hx]
        rw [hsp, h4]

/-- **C122.**  A map with `rest` gets the same entries, or messages, if the keys belong to other fields. -/
theorem c122_rest {κ ν : Type} [DecidableEq κ] (kd : Dict κ) (keyStr : κ → Str) (vd : Dict ν)
    (hk : Good (kd.parse .unnamed)) (hv : ∀ n sp, Good (vd.named n sp)) (lk : Local (kd.parse .unnamed))
    (lv : ∀ n sp, Local (vd.named n sp)) (hkey : ReadsKeys kd keyStr) (exclude : List Str) {R : Str → Str → Prop}
    (h : ∀ k k', R k k' → k ∈ exclude ∧ k' ∈ exclude) : Blind R (mapRest kd keyStr vd exclude) := by
  intro l l' hr
  have hp : Unseeing R id (entryItem (kd.parse .unnamed) keyStr vd.named exclude id) := by
    refine ⟨entryItem_good hk hv exclude (after := id) fun s => Adv.refl s, entryItem_local lk lv exclude, ?_⟩
    intro segs segs' sp v v' vt rest sc u h1 h2 hR hn hb
    obtain ⟨key, e1, e2⟩ := hkey sc u h1 hb
    obtain ⟨key', e1', e2'⟩ := hkey sc u h2 hb
    obtain ⟨x1, x2⟩ := h _ _ hR
    simp only [entryItem, e1, e1', e2, e2', if_pos x1, if_pos x2, Res.map, and_self]
  simp only [mapRest, restStep_eq]
  obtain ⟨r, k', l1, l1', h1, h2⟩ := fold_blind hp (onSome mapAdd) ⟨[], Errors.new⟩ hr
  simp only [runAcc, h1, h2]
  cases r <;> rfl

/-! ## Structures as they are derived -/

/-- The parsers of `append`, `rest` and `flatten` fields that deluxe offers or derives, in any nesting, for which the
keys in question are names of the same field or of none. -/
inductive PlainBlind (R : Str → Str → Prop) : {α : Type} → M (List Stream) α → Prop
  | appendSeq {α} (d : Dict α) (names : List Str) : (∀ n sp, Good (d.named n sp)) → (∀ n sp, Local (d.named n sp)) →
      (∀ n n' sp, d.named n sp = d.named n' sp) → (∀ k k', R k k' → (k ∈ names ↔ k' ∈ names)) →
      PlainBlind R (seqAppend d names)
  | appendSet {α} [DecidableEq α] (d : Dict α) (names : List Str) : (∀ n sp, Good (d.named n sp)) →
      (∀ n sp, Local (d.named n sp)) → (∀ n n' sp, d.named n sp = d.named n' sp) →
      (∀ k k', R k k' → (k ∈ names ↔ k' ∈ names)) → PlainBlind R (setAppend d names)
  | rest {κ ν} [DecidableEq κ] (kd : Dict κ) (keyStr : κ → Str) (vd : Dict ν) (exclude : List Str) :
      Good (kd.parse .unnamed) → (∀ n sp, Good (vd.named n sp)) → Local (kd.parse .unnamed) →
      (∀ n sp, Local (vd.named n sp)) → ReadsKeys kd keyStr → (∀ k k', R k k' → k ∈ exclude ∧ k' ∈ exclude) →
      PlainBlind R (mapRest kd keyStr vd exclude)
  | struct {W} (d : StructDef W) (k : Span) (pre : Str) (validate : Bool) : FieldsGood d.fields →
      (∀ f ∈ d.fields, f.item.Local) → SameField d.data (Field.fieldNames d.fields) pre validate R →
      (∀ f ∈ d.fields, f.flatParsable = true → PlainBlind R (f.flatCall pre k (Field.fieldNames d.fields))) →
      PlainBlind R (d.flatNamed.parse (.named k) pre validate)
  | embed {α β} {q : M (List Stream) α} (f : α → β) : PlainBlind R q → PlainBlind R (q.mapRes (·.map f))

/-- **C122.**  None of them makes a difference between the keys. -/
theorem c122_every_flat {R : Str → Str → Prop} {α : Type} {q : M (List Stream) α} (h : PlainBlind R q) : Blind R q := by
  induction h with
  | appendSeq d names h1 h2 h3 h4 => exact c122_append_sequence d h1 h2 h3 names h4
  | appendSet d names h1 h2 h3 h4 => exact c122_append_set d h1 h2 h3 names h4
  | rest kd keyStr vd exclude h1 h2 h3 h4 h5 h6 => exact c122_rest kd keyStr vd h1 h2 h3 h4 h5 exclude h6
  | struct d k pre validate h1 h2 h3 _ ih =>
    intro l l' hr
    have := c122_struct d.data h1 h2 (Field.fieldNames d.fields) k pre validate h3 ih l l' hr
    exact congrArg (runAndThens d.andThens) this
  | embed f _ ih => exact fun l l' hr => congrArg (Res.map f) (ih l l' hr)

theorem PlainBlind.whole {R : Str → Str → Prop} {α : Type} {q : M (List Stream) α} (h : PlainBlind R q) : Whole q := by
  induction h with
  | appendSeq d names h1 _ => exact fun l v l' h => (c26_only_sequence d h1 names l l' v h).elim fun _ h => h.2.2
  | appendSet d names h1 _ => exact fun l v l' h => (c26_only_set d h1 names l l' v h).elim fun _ h => h.2.2.2
  | rest kd keyStr vd exclude h1 h2 _ _ _ =>
    exact fun l v l' h => (c27_only_entries kd keyStr vd h1 h2 exclude l l' v h).elim fun _ h => h.2.2.2
  | struct d k pre validate h1 _ _ _ ih =>
    refine (namedFlat_whole d.data h1 (Field.fieldNames d.fields) k pre validate ih).mapped ?_
    intro r y h
    cases r with
    | ok x => exact ⟨x, rfl⟩
    | err e => cases h
    | panic => cases h
  | embed f _ ih =>
    refine ih.mapped ?_
    intro r y h
    cases r with
    | ok x => exact ⟨x, rfl⟩
    | err e => cases h
    | panic => cases h

/-- A field that is given by its names: not one with `flatten` or `rest`. -/
def Field.ByName (f : Field V) : Prop := f.isParsable = true ∧ f.isFlatten = false ∧ f.rest.getD false = false

/-- Both keys are, after the prefix, names of the same field. -/
def SameName (fields : List (Field V)) (pre : Str) (k k' : Str) : Prop :=
  ∃ f ∈ fields, f.ByName ∧ ∃ n ∈ f.idents, ∃ n' ∈ f.idents, k = pre ++ n ∧ k' = pre ++ n'

/-- No two fields have a name in common. -/
def NamesApart (fields : List (Field V)) : Prop :=
  ∀ (i j : Nat) (f g : Field V) (n : Str), fields[i]? = some f → fields[j]? = some g → f.ByName → g.ByName →
    n ∈ f.idents → n ∈ g.idents → i = j

omit [Env] in
theorem Field.Plain.byName {f : Field V} (h : f.Plain) : f.ByName := by
  obtain ⟨h1, h2⟩ := h
  simp only [Field.isFlat, Bool.or_eq_false_iff] at h1
  exact ⟨h2, h1.1.1, h1.2⟩

omit [Env] in
theorem owns_apart {fields : List (Field V)} (ha : NamesApart fields) (pre n : Str) (f : Field V) (i : Nat) :
    Owns fields pre (pre ++ n) f i ↔ fields[i]? = some f ∧ f.Plain ∧ n ∈ f.idents := by
  constructor
  · rintro ⟨m, hm, h1, h2, h3, _⟩
    obtain rfl := List.append_cancel_left hm
    exact ⟨h1, h2, h3⟩
  · rintro ⟨h1, h2, h3⟩
    refine ⟨n, rfl, h1, h2, h3, fun j g hj hg hgp hn => ?_⟩
    have := ha j i g f n hg h1 hgp.byName h2.byName hn h3
    omega

omit [Env] in
/-- The names are known. -/
theorem SameName.known {fields : List (Field V)} {k k' : Str} (h : SameName fields [] k k') :
    k ∈ Field.fieldNames fields ∧ k' ∈ Field.fieldNames fields := by
  obtain ⟨f, hf, hp, n, hn, n', hn', h1, h2⟩ := h
  rw [h1, h2]
  exact ⟨(c39_names _ _).2 ⟨f, hf, hp.1, .inr (.inr ⟨hp.2.1, hn⟩)⟩, (c39_names _ _).2 ⟨f, hf, hp.1, .inr (.inr ⟨hp.2.1, hn'⟩)⟩⟩

omit [Env] in
/-- The names of one field are names of the same field. -/
theorem SameName.own {d : Fields V} (ha : NamesApart d.fields) (allowed : List Str) (pre : Str) (validate : Bool)
    (hv : validate = true → pre = [] ∧ allowed = Field.fieldNames d.fields) :
    SameField d allowed pre validate (SameName d.fields pre) where
  own := by
    rintro k k' ⟨f, hf, hp, n, hn, n', hn', rfl, rfl⟩ g i
    obtain ⟨j, hj⟩ := List.getElem?_of_mem hf
    rw [owns_apart ha, owns_apart ha]
    constructor
    · rintro ⟨h1, h2, h3⟩
      obtain rfl := ha _ _ _ _ _ h1 hj h2.byName hp h3 hn
      rw [hj] at h1
      cases h1
      exact ⟨hj, h2, hn'⟩
    · rintro ⟨h1, h2, h3⟩
      obtain rfl := ha _ _ _ _ _ h1 hj h2.byName hp h3 hn'
      rw [hj] at h1
      cases h1
      exact ⟨hj, h2, hn⟩
  known := by
    intro k k' h _ _ hval
    obtain ⟨rfl, rfl⟩ := hv hval
    exact h.known

omit [Env] in
/-- Keys of no field of the structure, of which none is unknown to it. -/
theorem SameField.elsewhere {d : Fields V} {allowed : List Str} {pre : Str} {validate : Bool} {R : Str → Str → Prop}
    (hn : ∀ k k', R k k' → ∀ f i, ¬ Owns d.fields pre k f i ∧ ¬ Owns d.fields pre k' f i)
    (ha : ∀ k k', R k k' → d.allowUnknown = false → validate = true → k ∈ allowed ∧ k' ∈ allowed) :
    SameField d allowed pre validate R where
  own k k' hR f i := ⟨fun h => absurd h (hn k k' hR f i).1, fun h => absurd h (hn k k' hR f i).2⟩
  known k k' hR _ := ha k k' hR

/-- **C122.**  A structure gives the same, values or messages, under whichever of its names the items are written: as
the items of attributes, in `name(…)` and in braces. -/
theorem c122_names (d : StructDef V) (ha : d.Accepted) (ht : d.isTransparent = false) (hs : d.shape = .named)
    (hg : d.FieldsFine) (hl : ∀ f ∈ d.fields, f.item.Local) (k : Span) {R : Str → Str → Prop}
    (h : SameField d.data (Field.fieldNames d.fields) [] (!d.acceptsAll) R)
    (hfl : ∀ f ∈ d.fields, f.flatParsable = true → PlainBlind R (f.flatCall [] k (Field.fieldNames d.fields))) :
    (∀ l l', RespeltAll R l l' → (d.dict.inline (.named k) l).1 = (d.dict.inline (.named k) l').1) ∧
    (∀ ts ts', Respelt R ts ts' → ∀ a b rest sc u,
      (d.dict.parse (.named k) ⟨.group .brace ts a b :: rest, sc, u⟩).1 =
        (d.dict.parse (.named k) ⟨.group .brace ts' a b :: rest, sc, u⟩).1 ∧
      ∀ n, (d.dict.named n k ⟨.group .paren ts a b :: rest, sc, u⟩).1 =
        (d.dict.named n k ⟨.group .paren ts' a b :: rest, sc, u⟩).1) := by
  have hp : PlainBlind R (d.flatNamed.parse (.named k) [] (!d.acceptsAll)) :=
    .struct d k [] _ ⟨fun f hf _ => (hg.item f hf).named, fun f hf => (hg.item f hf).missing, hg.flat hs⟩ hl h hfl
  have hb := c122_every_flat hp
  have hi : ∀ mode, d.dict.inline mode = d.flatNamed.parse mode [] (!d.acceptsAll) := by
    intro mode
    simp only [StructDef.dict, ht, hs]
    rfl
  have key : ∀ dl ts ts', Respelt R ts ts' → ∀ a b rest sc u,
      (parseDelimitedMetaItem dl (fun mode => d.flatNamed.parse mode [] (!d.acceptsAll)) (.named k)
        ⟨.group dl ts a b :: rest, sc, u⟩).1 =
      (parseDelimitedMetaItem dl (fun mode => d.flatNamed.parse mode [] (!d.acceptsAll)) (.named k)
        ⟨.group dl ts' a b :: rest, sc, u⟩).1 := by
    intro dl ts ts' hr a b rest sc u
    have h1 := hb [⟨ts, b, u⟩] [⟨ts', b, u⟩] (.cons hr .nil)
    obtain ⟨r, s1, e1⟩ := one_left (d.flatNamed_good ha ht hs hg (.named k) [] (!d.acceptsAll)) ⟨ts, b, u⟩
    obtain ⟨r', s1', e1'⟩ := one_left (d.flatNamed_good ha ht hs hg (.named k) [] (!d.acceptsAll)) ⟨ts', b, u⟩
    rw [e1, e1'] at h1
    subst h1
    simp only [parseDelimitedMetaItem, parseDelimitedWith, withContent, enter, if_true, Bind.bind, M.bind, single, e1, e1',
      List.headD_cons]
    cases r with
    | panic => rfl
    | err e => rfl
    | ok v =>
      have w1 := hp.whole _ _ _ e1 s1 List.mem_cons_self
      have w2 := hp.whole _ _ _ e1' s1' List.mem_cons_self
      have z1 := (c04_eof s1).1 (.inl w1)
      have z2 := (c04_eof s1').1 (.inl w2)
      simp only [z1, z2]
      rfl
  refine ⟨fun l l' hr => by rw [hi]; exact hb l l' hr, fun ts ts' hr a b rest sc u => ⟨?_, fun n => ?_⟩⟩
  · have hd : d.dict.parse (.named k) = parseDelimitedMetaItem .brace
        (fun mode => d.flatNamed.parse mode [] (!d.acceptsAll)) (.named k) := by
      simp only [StructDef.dict, ht, hs]
      rfl
    rw [hd]
    exact key .brace ts ts' hr a b rest sc u
  · have hd : ∀ ts, d.dict.named n k ⟨.group .paren ts a b :: rest, sc, u⟩ = parseDelimitedMetaItem .paren
        (fun mode => d.flatNamed.parse mode [] (!d.acceptsAll)) (.named k) ⟨.group .paren ts a b :: rest, sc, u⟩ := by
      intro ts
      simp only [StructDef.dict, ht, hs]
      rfl
    rw [hd, hd]
    exact key .paren ts ts' hr a b rest sc u

/-- The flat fields that deluxe offers, for the names of the fields of the structure they belong to. -/
inductive FlatOffered (fields : List (Field V)) (k : Span) (f : Field V) : Prop
  | appendSeq {α : Type} (d : Dict α) (g : List α → V) : f.append.getD false = true → f.ByName →
      (∀ names, f.appendP names = (seqAppend d names).mapRes (·.map g)) → d.Good → d.Local →
      (∀ n n' sp, d.named n sp = d.named n' sp) → FlatOffered fields k f
  | appendSet {α : Type} [DecidableEq α] (d : Dict α) (g : List α → V) : f.append.getD false = true → f.ByName →
      (∀ names, f.appendP names = (setAppend d names).mapRes (·.map g)) → d.Good → d.Local →
      (∀ n n' sp, d.named n sp = d.named n' sp) → FlatOffered fields k f
  | rest {κ ν : Type} [DecidableEq κ] (kd : Dict κ) (keyStr : κ → Str) (vd : Dict ν) (g : List (κ × ν) → V) :
      f.append.getD false = false → f.rest.getD false = true →
      (∀ names, f.restP names = (mapRest kd keyStr vd names).mapRes (·.map g)) → kd.Good → vd.Good → kd.Local → vd.Local →
      ReadsKeys kd keyStr → FlatOffered fields k f
  | flatten {W : Type} (d : StructDef W) (g : List W → V) : f.append.getD false = false → f.rest.getD false = false →
      f.flatNamed.parse = (fun m pre v => (d.flatNamed.parse m pre v).mapRes (·.map g)) → FieldsGood d.fields →
      (∀ h ∈ d.fields, h.item.Local) → d.fields.all (fun h => !h.isFlat) = true →
      (∀ key key', SameName fields [] key key' → ∀ h i, ¬ Owns d.fields
        (match f.flatten.bind (·.pre) with | some p => joinPrefix [] p | none => []) key h i) →
      FlatOffered fields k f

/-- **C122.**  Exchanging names of the same field, of one with `append` too, makes no difference to a structure whose
other flat fields are maps with `rest` and flattened structures that do not have fields of these names. -/
theorem c122_own_names (d : StructDef V) (ha : d.Accepted) (ht : d.isTransparent = false) (hs : d.shape = .named)
    (hg : d.FieldsFine) (hl : ∀ f ∈ d.fields, f.item.Local) (k : Span) (hn : NamesApart d.fields)
    (hfl : ∀ f ∈ d.fields, f.flatParsable = true → FlatOffered d.fields k f) :
    (∀ l l', RespeltAll (SameName d.fields []) l l' → (d.dict.inline (.named k) l).1 = (d.dict.inline (.named k) l').1) ∧
    (∀ ts ts', Respelt (SameName d.fields []) ts ts' → ∀ a b rest sc u,
      (d.dict.parse (.named k) ⟨.group .brace ts a b :: rest, sc, u⟩).1 =
        (d.dict.parse (.named k) ⟨.group .brace ts' a b :: rest, sc, u⟩).1 ∧
      ∀ n, (d.dict.named n k ⟨.group .paren ts a b :: rest, sc, u⟩).1 =
        (d.dict.named n k ⟨.group .paren ts' a b :: rest, sc, u⟩).1) := by
  refine c122_names d ha ht hs hg hl k (SameName.own (d := d.data) hn _ _ _ fun _ => ⟨rfl, rfl⟩) fun f hf hp => ?_
  have happ : f.ByName → ∀ key key', SameName d.fields [] key key' →
      (key ∈ joinPaths [] f.idents ↔ key' ∈ joinPaths [] f.idents) := by
    rintro hb key key' ⟨g, hgm, hgb, n, h1, n', h2, e1, e2⟩
    rw [e1, e2, joinPaths_keys (.inl rfl)]
    obtain ⟨i, hi⟩ := List.getElem?_of_mem hf
    obtain ⟨j, hj⟩ := List.getElem?_of_mem hgm
    have hmem : ∀ n, [] ++ n ∈ f.keys [] ↔ n ∈ f.idents := by
      intro n
      simp [Field.keys]
    rw [hmem, hmem]
    constructor
    · intro h
      obtain rfl := hn _ _ _ _ _ hi hj hb hgb h h1
      rw [hi] at hj
      cases hj
      exact h2
    · intro h
      obtain rfl := hn _ _ _ _ _ hi hj hb hgb h h2
      rw [hi] at hj
      cases hj
      exact h1
  cases hfl f hf hp with
  | appendSeq dd g h1 h2 h3 h4 h5 h6 =>
    simp only [Field.flatCall, h1, if_true, h3]
    exact .embed g (.appendSeq dd _ h4.named h5.named h6 (happ h2))
  | appendSet dd g h1 h2 h3 h4 h5 h6 =>
    simp only [Field.flatCall, h1, if_true, h3]
    exact .embed g (.appendSet dd _ h4.named h5.named h6 (happ h2))
  | rest kd keyStr vd g h1 h2 h3 h4 h5 h6 h7 h8 =>
    simp only [Field.flatCall, h1, h2, Bool.false_eq_true, if_false, if_true, h3]
    exact .embed g (.rest kd keyStr vd _ (h4.parse _) h5.named (h6.parse _) h7.named h8 fun _ _ h => h.known)
  | flatten dd g h1 h2 h3 h4 h5 h6 h7 =>
    simp only [Field.flatCall, h1, h2, Bool.false_eq_true, if_false, h3]
    refine .embed g (.struct dd k _ _ h4 h5 (.elsewhere (fun key key' hR h i => ⟨h7 _ _ hR h i, ?_⟩) fun _ _ _ _ h => by
      cases h) fun h hh hpar => ?_)
    · obtain ⟨x, y, z, n, a1, n', a2, a3, a4⟩ := hR
      exact h7 key' key ⟨x, y, z, n', a2, n, a1, a4, a3⟩ h i
    · have := List.all_eq_true.1 h6 h hh
      simp only [Field.flatParsable, Bool.and_eq_true] at hpar
      simp [hpar.1] at this


/-! ## Examples -/

/-- `#[deluxe(alias = b)] a: bool, #[deluxe(flatten)] i: …, #[deluxe(append, alias = y)] x: Vec<bool>` -/
def aliased : StructDef (List Bool) :=
  ⟨.named, [{ plainField ['a'] (boolDict.map fun b => [b]) with idents := [['a'], ['b']] },
    { plainField ['i'] (boolDict.map fun b => [b]) with
      flatten := some ⟨true, none⟩, flatNamed := (twoNamed "p" "q").flatNamed },
    { plainField ['x'] (boolDict.map fun b => [b]) with
      idents := [['x'], ['y']], append := some true, appendP := seqAppend boolDict }], none, none, none, []⟩

theorem aliased_all {p : Field (List Bool) → Prop} : (∀ f ∈ aliased.fields, p f) ↔
    p { plainField ['a'] (boolDict.map fun b => [b]) with idents := [['a'], ['b']] } ∧
    p { plainField ['i'] (boolDict.map fun b => [b]) with
      flatten := some ⟨true, none⟩, flatNamed := (twoNamed "p" "q").flatNamed } ∧
    p { plainField ['x'] (boolDict.map fun b => [b]) with
      idents := [['x'], ['y']], append := some true, appendP := seqAppend boolDict } := by
  simp [aliased]

omit [Env] in
theorem map_id_flat {α : Type} (q : M (List Stream) α) : q.mapRes (·.map id) = q := by
  funext l
  simp only [M.mapRes]
  generalize q l = x
  obtain ⟨r, l'⟩ := x
  cases r <;> rfl

theorem aliased_names {k k' : Str} (h : SameName aliased.fields [] k k') : k ∈ [['a'], ['b'], ['x'], ['y']] := by
  obtain ⟨f, hf, hp, n, hn, n', hn', h1, h2⟩ := h
  rw [h1]
  clear h1 h2 hn'
  revert hp hn
  refine aliased_all (p := fun f => f.ByName → n ∈ f.idents → [] ++ n ∈ [['a'], ['b'], ['x'], ['y']]).2
    ⟨fun _ h => ?_, fun h => ?_, fun _ h => ?_⟩ f hf
  · simp only [List.mem_cons, List.not_mem_nil, or_false] at h
    rcases h with rfl | rfl <;> simp
  · exact nomatch h.2.1
  · simp only [List.mem_cons, List.not_mem_nil, or_false] at h
    rcases h with rfl | rfl <;> simp

/-- C122: the conditions are met, and names of both kinds of fields can be exchanged. -/
example (k : Span) : NamesApart aliased.fields ∧ (∀ f ∈ aliased.fields, f.item.Local) ∧
    (∀ f ∈ aliased.fields, f.flatParsable = true → FlatOffered aliased.fields k f) ∧
    SameName aliased.fields [] ['a'] ['b'] ∧ SameName aliased.fields [] ['x'] ['y'] ∧
    Respelt (SameName aliased.fields []) [.ident ['q'] 1, .punct ',' false 2, .ident ['a'] 3, .punct ',' false 4, .ident ['y'] 5]
      [.ident ['q'] 1, .punct ',' false 2, .ident ['b'] 3, .punct ',' false 4, .ident ['x'] 5] := by
  have hab : SameName aliased.fields [] ['a'] ['b'] :=
    ⟨_, List.mem_cons_self, ⟨rfl, rfl, rfl⟩, ['a'], by simp, ['b'], by simp, rfl, rfl⟩
  have hxy : ∀ a ∈ [['x'], ['y']], ∀ b ∈ [['x'], ['y']], SameName aliased.fields [] a b := fun a ha b hb =>
    ⟨_, List.mem_cons_of_mem _ (List.mem_cons_of_mem _ List.mem_cons_self), ⟨rfl, rfl, rfl⟩, a, ha, b, hb, rfl, rfl⟩
  have hloc : (boolDict.map fun b => [b]).Local :=
    ⟨fun m => (c56_bool.parse m).map _, fun n sp => (c56_bool.named n sp).map _⟩
  have hap : NamesApart aliased.fields := by
    intro i j f g n hi hj hf hg h1 h2
    match i, j, hi, hj with
    | 0, 0, _, _ => rfl
    | 2, 2, _, _ => rfl
    | _, 1, _, hj => cases hj; exact nomatch hg.2.1
    | 1, _, hi, _ => cases hi; exact nomatch hf.2.1
    | 0, 2, hi, hj =>
      cases hi; cases hj
      simp only [List.mem_cons, List.not_mem_nil, or_false] at h1 h2
      rcases h1 with rfl | rfl <;> simp at h2
    | 2, 0, hi, hj =>
      cases hi; cases hj
      simp only [List.mem_cons, List.not_mem_nil, or_false] at h1 h2
      rcases h1 with rfl | rfl <;> simp at h2
    | _ + 3, _, hi, _ => cases hi
    | _, _ + 3, _, hj => cases hj
  refine ⟨hap, aliased_all.2 ⟨hloc, hloc, hloc⟩, aliased_all.2 ⟨fun h => (by cases h), fun _ => ?_, fun _ => ?_⟩, hab,
    hxy _ (by simp) _ (by simp), ?_⟩
  · refine .flatten (twoNamed "p" "q") id rfl rfl ?_ ?_ ?_ rfl ?_
    · funext m pre v
      exact (map_id_flat _).symm
    · exact ⟨fun f hf _ => (twoNamed_fine.item f hf).named, fun f hf => (twoNamed_fine.item f hf).missing,
        twoNamed_fine.flat rfl⟩
    · intro f hf
      simp only [twoNamed, List.mem_cons, List.not_mem_nil, or_false] at hf
      rcases hf with rfl | rfl <;> exact c56_bool
    · intro key key' h f i ho
      have hk := aliased_names h
      have := (owner_some _ _ _ _ _).2 ho
      simp only [List.mem_cons, List.not_mem_nil, or_false] at hk
      rcases hk with rfl | rfl | rfl | rfl <;> cases this
  · exact .appendSeq boolDict id rfl ⟨rfl, rfl, rfl⟩ (fun _ => (map_id_flat _).symm) boolDict_good c56_bool fun _ _ _ => rfl
  · refine .keep (v := [.ident ['q'] 1]) (by simp [NoComma, Comma]) ⟨_, _, rfl⟩ ?_
    have key : ∀ (s : Str) (sp : Span), KeyToks [s] sp [.ident s sp] [] := fun s sp =>
      .mk (pt := [.ident s sp]) (.plain (.one _ _)) (by simp [StartsColon2])
    exact .more (v := [.ident ['a'] 3]) (v' := [.ident ['b'] 3]) (key _ _) (key _ _) hab (by simp [NoComma]) ⟨_, _, rfl⟩
      (.last (v := [.ident ['y'] 5]) (v' := [.ident ['x'] 5]) (key _ _) (key _ _) (hxy _ (by simp [keyString]) _ (by simp [keyString]))
        (by simp [NoComma]))

/-- C122: `{q, a, p}` and `{q, b, p}` give the same, and so do `{q, a, a}` and `{q, a, b}`, which repeat `a`. -/
example : letI : Env := ⟨fun a _ => some a, fun _ _ => 0, 1⟩
    ((aliased.dict.parse (.named 0) ⟨[.group .brace [.ident ['q'] 1, .punct ',' false 2, .ident ['a'] 3, .punct ',' false 4,
      .ident ['p'] 5] 8 9], 0, none⟩).1 matches .ok [[true], [true, true], []]) ∧
    ((aliased.dict.parse (.named 0) ⟨[.group .brace [.ident ['q'] 1, .punct ',' false 2, .ident ['b'] 3, .punct ',' false 4,
      .ident ['p'] 5] 8 9], 0, none⟩).1 matches .ok [[true], [true, true], []]) ∧
    ((aliased.dict.parse (.named 0) ⟨[.group .brace [.ident ['q'] 1, .punct ',' false 2, .ident ['a'] 3, .punct ',' false 4,
      .ident ['a'] 5] 8 9], 0, none⟩).1 matches .err ⟨⟨5, .duplicateAttr ['a']⟩, _⟩) ∧
    ((aliased.dict.parse (.named 0) ⟨[.group .brace [.ident ['q'] 1, .punct ',' false 2, .ident ['a'] 3, .punct ',' false 4,
      .ident ['b'] 5] 8 9], 0, none⟩).1 matches .err ⟨⟨5, .duplicateAttr ['a']⟩, _⟩) := by
  decide +kernel

/-- C122: `Path` as the type of keys reads them like the keys of items. -/
example : ReadsKeys pathKeyDict keyString := by
  intro segs sp v vt rest sc u h hb
  cases h with
  | mk hp hc =>
    refine ⟨segs, ?_, rfl⟩
    show M.map Path.segs parseAnyPath _ = _
    simp only [M.map, List.append_assoc]
    rw [parseAnyPath_key hp _ _ _ (boundary_noColon hc hb)]
    rfl

end
end Deluxe
