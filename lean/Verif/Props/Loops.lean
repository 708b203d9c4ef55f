import Verif.Lemmas.Runs
import Verif.Lemmas.Tuple
import Verif.Model.Types
/-!
# C08, C09, C10: the item loops
-/
namespace Deluxe
variable {κ : Type}

/-! ## C08: specification -/

/-- The named-field loop on one stream, as a user thinks of it: read a key, call the callback with
the key string, go on after a comma, stop at the end; or stop at the first failure (bad key, callback
error, missing comma).  `keys` are the keys the callback was called with; the outcome is `none` for
success. -/
inductive Visits [Env] (func : Str → Span → M (κ × Stream) Unit) :
    κ → Stream → List Str → Option SynErr → κ → Stream → Prop
  | done {k s} : s.toks = [] → Visits func k s [] none k s
  | last {k s p s1 k2 s2} : s.toks ≠ [] → parseAnyPath s = (.ok p, s1) →
      func (keyString p.segs) p.span (k, s1) = (.ok (), (k2, s2)) → s2.toks = [] →
      Visits func k s [keyString p.segs] none k2 s2
  | more {k s p s1 k2 s2 c rest keys out k3 s3} : s.toks ≠ [] → parseAnyPath s = (.ok p, s1) →
      func (keyString p.segs) p.span (k, s1) = (.ok (), (k2, s2)) → s2.toks = c :: rest → Comma c →
      Visits func k2 { s2 with toks := rest } keys out k3 s3 →
      Visits func k s (keyString p.segs :: keys) out k3 s3
  | badKey {k s e s1} : s.toks ≠ [] → parseAnyPath s = (.err e, s1) →
      Visits func k s [] (some e) k s1
  | callbackFails {k s p s1 e k2 s2} : s.toks ≠ [] → parseAnyPath s = (.ok p, s1) →
      func (keyString p.segs) p.span (k, s1) = (.err e, (k2, s2)) →
      Visits func k s [keyString p.segs] (some e) k2 s2
  | noComma {k s p s1 k2 s2 t rest} : s.toks ≠ [] → parseAnyPath s = (.ok p, s1) →
      func (keyString p.segs) p.span (k, s1) = (.ok (), (k2, s2)) → s2.toks = t :: rest → ¬ Comma t →
      Visits func k s [keyString p.segs] (some (.new t.span (.expectedPunct [',']))) k2 s2

/-- The streams one after the other, up to the first failure. -/
inductive VisitsAll [Env] (func : Str → Span → M (κ × Stream) Unit) :
    κ → List Stream → List Str → Option SynErr → κ → List Stream → Prop
  | nil {k} : VisitsAll func k [] [] none k []
  | cons {k s ks1 k1 s1 rest ks2 out k2 rest'} : Visits func k s ks1 none k1 s1 →
      VisitsAll func k1 rest ks2 out k2 rest' →
      VisitsAll func k (s :: rest) (ks1 ++ ks2) out k2 (s1 :: rest')
  | fail {k s ks e k1 s1 rest} : Visits func k s ks (some e) k1 s1 →
      VisitsAll func k (s :: rest) ks (some e) k1 (s1 :: rest)

/-- Outcome of a loop as an optional error. -/
def asRes : Option SynErr → Res Unit
  | none => .ok ()
  | some e => .err e

/-- A callback that also records the keys it is called with. -/
def logged (func : Str → Span → M (κ × Stream) Unit) :
    Str → Span → M ((List Str × κ) × Stream) Unit := fun key sp st =>
  let (r, (k', s')) := func key sp (st.1.2, st.2)
  (r, ((st.1.1 ++ [key], k'), s'))

/-! ## C08: lemmas -/

theorem Visits.run [Env] {func : Str → Span → M (κ × Stream) Unit} {k s ks out k' s'}
    (h : Visits func k s ks out k' s') : ItemRun (keyStep func) k s (asRes out) k' s' := by
  induction h with
  | done h => exact .done h
  | last hne hp hf h0 => exact .last hne (by rw [keyStep_eq, hp]; exact hf) h0
  | more hne hp hf h1 hc _ ih => exact .more hne (by rw [keyStep_eq, hp]; exact hf) h1 hc ih
  | badKey hne hp => exact .failItem hne (by rw [keyStep_eq, hp])
  | callbackFails hne hp hf => exact .failItem hne (by rw [keyStep_eq, hp]; exact hf)
  | noComma hne hp hf h1 hc => exact .failSep hne (by rw [keyStep_eq, hp]; exact hf) h1 hc

theorem keyStep_ok [Env] {func : Str → Span → M (κ × Stream) Unit} {k s k2 s2}
    (h : keyStep func (k, s) = (.ok (), (k2, s2))) :
    ∃ p s1, parseAnyPath s = (.ok p, s1) ∧
      func (keyString p.segs) p.span (k, s1) = (.ok (), (k2, s2)) := by
  rw [keyStep_eq] at h
  cases hp : parseAnyPath s with
  | mk r s1 =>
    rw [hp] at h
    cases r with
    | ok p => exact ⟨p, s1, rfl, h⟩
    | err e => simp at h
    | panic => simp at h

theorem ItemRun.visits [Env] {func : Str → Span → M (κ × Stream) Unit} {k s r k' s'}
    (h : ItemRun (keyStep func) k s r k' s') :
    ∃ ks out, r = asRes out ∧ Visits func k s ks out k' s' := by
  induction h with
  | done h => exact ⟨[], none, rfl, .done h⟩
  | last hne hst h0 =>
    obtain ⟨p, s1, hp, hf⟩ := keyStep_ok hst
    exact ⟨_, none, rfl, .last hne hp hf h0⟩
  | more hne hst h1 hc _ ih =>
    obtain ⟨p, s1, hp, hf⟩ := keyStep_ok hst
    obtain ⟨ks, out, rfl, hv⟩ := ih
    exact ⟨_, out, rfl, .more hne hp hf h1 hc hv⟩
  | @failItem k s k1 s1 e hne hst =>
    rw [keyStep_eq] at hst
    cases hp : parseAnyPath s with
    | mk r sp =>
      rw [hp] at hst
      cases r with
      | ok p => exact ⟨_, some e, rfl, .callbackFails hne hp hst⟩
      | err e' =>
        simp only [Prod.mk.injEq, Res.err.injEq] at hst
        obtain ⟨rfl, rfl, rfl⟩ := hst
        exact ⟨_, some e', rfl, .badKey hne hp⟩
      | panic => simp at hst
  | failSep hne hst h1 hc =>
    obtain ⟨p, s1, hp, hf⟩ := keyStep_ok hst
    exact ⟨_, some _, rfl, .noComma hne hp hf h1 hc⟩

theorem asRes_ne_panic (o : Option SynErr) : asRes o ≠ .panic := by cases o <;> simp [asRes]

theorem VisitsAll.run [Env] {func : Str → Span → M (κ × Stream) Unit} {k l ks out k' l'}
    (h : VisitsAll func k l ks out k' l') :
    StreamsRun (ItemRun (keyStep func)) k l (asRes out) k' l' := by
  induction h with
  | nil => exact .nil
  | cons h1 _ ih => exact .cons h1.run ih
  | fail h1 => exact .fail h1.run

theorem StreamsRun.visits [Env] {func : Str → Span → M (κ × Stream) Unit} {k l r k' l'}
    (h : StreamsRun (ItemRun (keyStep func)) k l r k' l') :
    ∃ ks out, r = asRes out ∧ VisitsAll func k l ks out k' l' := by
  induction h with
  | nil => exact ⟨[], none, rfl, .nil⟩
  | cons h1 _ ih =>
    obtain ⟨ks1, o1, ho1, hv1⟩ := h1.visits
    obtain ⟨ks2, o2, rfl, hv2⟩ := ih
    cases o1 with
    | none => exact ⟨_, o2, rfl, .cons hv1 hv2⟩
    | some e => simp [asRes] at ho1
  | fail h1 =>
    obtain ⟨ks1, o1, ho1, hv1⟩ := h1.visits
    cases o1 with
    | none => simp [asRes] at ho1
    | some e =>
      simp only [asRes, Res.err.injEq] at ho1
      subst ho1
      exact ⟨_, some _, rfl, .fail hv1⟩

theorem Visits.log [Env] {func : Str → Span → M (κ × Stream) Unit} {k s ks out k' s'}
    (h : Visits func k s ks out k' s') (log : List Str) :
    Visits (logged func) (log, k) s ks out (log ++ ks, k') s' := by
  have hl : ∀ {log key sp k s r k2 s2}, func key sp (k, s) = (r, (k2, s2)) →
      logged func key sp ((log, k), s) = (r, ((log ++ [key], k2), s2)) := by
    intro log key sp k s r k2 s2 h
    simp only [logged, h]
  induction h generalizing log with
  | done h => rw [List.append_nil]; exact .done h
  | last hne hp hf h0 => exact .last hne hp (hl hf) h0
  | @more _ _ p _ _ _ _ _ _ _ _ _ hne hp hf h1 hc _ ih =>
    refine .more hne hp (hl hf) h1 hc ?_
    have := ih (log ++ [keyString p.segs])
    rw [List.append_assoc] at this
    exact this
  | badKey hne hp => rw [List.append_nil]; exact .badKey hne hp
  | callbackFails hne hp hf => exact .callbackFails hne hp (hl hf)
  | noComma hne hp hf h1 hc => exact .noComma hne hp (hl hf) h1 hc

theorem VisitsAll.log [Env] {func : Str → Span → M (κ × Stream) Unit} {k l ks out k' l'}
    (h : VisitsAll func k l ks out k' l') (log : List Str) :
    VisitsAll (logged func) (log, k) l ks out (log ++ ks, k') l' := by
  induction h generalizing log with
  | nil => rw [List.append_nil]; exact .nil
  | cons h1 _ ih =>
    rw [← List.append_assoc]
    exact .cons (h1.log log) (ih _)
  | fail h1 => exact .fail (h1.log log)

/-! ## C08: theorems -/

/-- C08: `parse_struct` does exactly what the relation says: for every callback that does not give
tokens back, on any streams, its outcome and effects are those of visiting the items in order up to
the first failure. -/
theorem c08_struct_loop [Env] (func : Str → Span → M (κ × Stream) Unit)
    (hf : ∀ key sp k s, (func key sp (k, s)).2.2.toks.length ≤ s.toks.length)
    (k k' : κ) (l l' : List Stream) (out : Option SynErr) :
    parseStruct func (k, l) = (asRes out, (k', l')) ↔
      ∃ keys, VisitsAll func k l keys out k' l' := by
  rw [parseStruct_eq]
  constructor
  · intro h
    obtain ⟨ks, o, ho, hv⟩ := (items_sound (asRes_ne_panic out) h).visits
    have : out = o := by
      cases out <;> cases o <;> simp [asRes] at ho ⊢
      exact ho
    subst this
    exact ⟨ks, hv⟩
  · rintro ⟨ks, hv⟩
    exact items_complete (keyStep_shrinks hf) hv.run

/-- C08: on success nothing is left in any stream. -/
theorem c08_consumes_all [Env] (func : Str → Span → M (κ × Stream) Unit) (k k' : κ)
    (l l' : List Stream) (h : parseStruct func (k, l) = (.ok (), (k', l'))) :
    ∀ s ∈ l', s.toks = [] := by
  rw [parseStruct_eq] at h
  exact (items_sound (by simp) h).empty (fun _ _ _ _ h => h.empty rfl) rfl

/-- C08: the calls of the callback, recorded by the callback itself, are exactly the keys of the
visited items, one call per item and in order. -/
theorem c08_calls [Env] (func : Str → Span → M (κ × Stream) Unit)
    (hf : ∀ key sp k s, (func key sp (k, s)).2.2.toks.length ≤ s.toks.length)
    (k k' : κ) (l l' : List Stream) (keys : List Str) (out : Option SynErr)
    (h : VisitsAll func k l keys out k' l') :
    parseStruct (logged func) (([], k), l) = (asRes out, ((keys, k'), l')) := by
  rw [c08_struct_loop (logged func) (fun key sp k s => hf key sp k.2 s)]
  exact ⟨keys, h.log []⟩

/-- Non-trivial case: two streams, the second with a flag item, visited by a callback that skips. -/
example [Env] : VisitsAll (κ := Nat) (fun _ _ st => (.ok (), (st.1 + 1, skipMetaItem st.2))) 0
    [⟨[.ident ['a'] 1, .punct '=' false 2, .lit (.int 3) 3, .punct ',' false 4], 9, none⟩,
     ⟨[.ident ['b'] 5], 9, none⟩]
    [['a'], ['b']] none 2 [⟨[], 9, none⟩, ⟨[], 9, none⟩] :=
  .cons (ks1 := [['a']])
    (.more (p := ⟨false, [['a']], 1⟩) (by simp) rfl rfl rfl ⟨_, _, rfl⟩ (.done rfl))
    (.cons (ks1 := [['b']]) (.last (p := ⟨false, [['b']], 5⟩) (by simp) rfl rfl rfl) .nil)

/-! ## C09: specification -/

/-- A well-formed keyed item: the tokens of its key, the tokens after the key, and the effect it has
on the captured state when its key is at the given span. -/
structure KeyedItem (κ : Type) where
  lead : Bool
  segs : List Str
  pathToks : List Tok
  valToks : List Tok
  effect : Span → κ → κ

/-- The callback handles the item: it consumes exactly the value tokens when a comma or the end
follows, and has the item's effect. -/
structure KeyedItem.Handled (func : Str → Span → M (κ × Stream) Unit) (it : KeyedItem κ) : Prop where
  path : PathToks it.lead it.segs it.pathToks
  noColon : ¬ StartsColon2 it.valToks
  run : ∀ sp k rest sc u, (rest = [] ∨ ∃ c r, rest = c :: r ∧ Comma c) →
    ∃ u', func (keyString it.segs) sp (k, ⟨it.valToks ++ rest, sc, u⟩) =
      (.ok (), (it.effect sp k, ⟨rest, sc, u'⟩))

/-- Tokens of a comma separated list of items, with or without trailing comma. -/
inductive Listing : List (KeyedItem κ) → List Tok → Prop
  | nil : Listing [] []
  | one (it) : Listing [it] (it.pathToks ++ it.valToks)
  | cons (it) {c its ts} : Comma c → Listing its ts →
      Listing (it :: its) (it.pathToks ++ it.valToks ++ c :: ts)

/-- The items are spread, in order, over the streams. -/
inductive Spread : List (KeyedItem κ) → List Stream → Prop
  | nil : Spread [] []
  | cons {s its1 its2 rest} : Listing its1 s.toks → Spread its2 rest →
      Spread (its1 ++ its2) (s :: rest)

/-! ## C09: lemmas -/

/-- A path is read with the same span whatever follows. -/
theorem parseAnyPath_append [Env] {lead : Bool} {segs : List Str} {pt : List Tok}
    (h : PathToks lead segs pt) : ∃ sp, ∀ rest sc u, ¬ StartsColon2 rest →
      parseAnyPath ⟨pt ++ rest, sc, u⟩ = (.ok ⟨lead, segs, sp⟩, ⟨rest, sc, u⟩) := by
  have main : ∀ (ts : List Tok), SegToks segs ts → ∃ sps : List (Str × Span),
      sps.isEmpty = false ∧ sps.map (·.1) = segs ∧
      ∀ rest, ¬ StartsColon2 rest → pathLoop (ts ++ rest) = (sps, false, rest) := by
    intro ts hts
    clear h
    induction hts with
    | one s sp =>
      refine ⟨[(s, sp)], rfl, rfl, fun rest hr => ?_⟩
      obtain ⟨h1, h2⟩ := pathLoop_complete (.one s sp) rest hr
      simp only [List.cons_append, List.nil_append] at h1 h2 ⊢
      unfold pathLoop
      split
      · rename_i heq
        simp only [List.cons.injEq] at heq
        exact absurd ⟨_, _, _, _, heq.2⟩ hr
      · rename_i heq
        simp only [List.cons.injEq, Tok.ident.injEq] at heq
        obtain ⟨⟨rfl, rfl⟩, rfl⟩ := heq
        rfl
      · rename_i hno
        exact absurd rfl (hno s sp rest)
    | cons s sp a j b _ ih =>
      obtain ⟨sps, i1, i2, i3⟩ := ih
      refine ⟨(s, sp) :: sps, rfl, by simp [i2], fun rest hr => ?_⟩
      have := i3 rest hr
      simp only [List.cons_append]
      rw [pathLoop]
      simp only [this, i1, Bool.false_eq_true, if_false]
  cases h with
  | plain hts =>
    obtain ⟨sps, h1, h2, h3⟩ := main pt hts
    refine ⟨joinSpans ((sps.map (·.2)).headD callSite) (sps.map (·.2)).tail, fun rest sc u hr => ?_⟩
    have hl : leadColon (pt ++ rest) = ([], pt ++ rest) := by cases hts <;> rfl
    simp only [parseAnyPath, hl, h3 rest hr, h1, h2, Bool.false_eq_true, if_false, List.nil_append,
      List.isEmpty_nil, Bool.not_true]
  | lead a b j hts =>
    obtain ⟨sps, h1, h2, h3⟩ := main _ hts
    refine ⟨joinSpans a (b :: sps.map (·.2)), fun rest sc u hr => ?_⟩
    simp only [parseAnyPath, List.cons_append, leadColon, h3 rest hr, h1, h2, Bool.false_eq_true,
      if_false, List.isEmpty_cons, Bool.not_false, List.nil_append, List.headD_cons, List.tail_cons]

theorem not_startsColon2_append {v rest : List Tok} (hv : ¬ StartsColon2 v)
    (hr : rest = [] ∨ ∃ c r, rest = c :: r ∧ Comma c) : ¬ StartsColon2 (v ++ rest) := by
  rintro ⟨a, j, b, ts, h⟩
  rcases hr with rfl | ⟨c, r, rfl, j', sp', rfl⟩
  · exact hv ⟨a, j, b, ts, by simpa using h⟩
  · cases v with
    | nil => simp at h
    | cons x v =>
      cases v with
      | nil => simp at h
      | cons y v => exact hv ⟨a, j, b, v, by simp_all⟩

theorem SegToks.ne_nil {ss ts} (h : SegToks ss ts) : ts ≠ [] := by cases h <;> simp

theorem PathToks.ne_nil {ld ss ts} (h : PathToks ld ss ts) : ts ≠ [] := by
  cases h with
  | plain h => exact h.ne_nil
  | lead => simp

open Classical in
/-- The span of an item's key. -/
noncomputable def KeyedItem.span [Env] (it : KeyedItem κ) : Span :=
  if h : PathToks it.lead it.segs it.pathToks then (parseAnyPath_append h).choose else callSite

theorem KeyedItem.span_spec [Env] {it : KeyedItem κ} (h : PathToks it.lead it.segs it.pathToks)
    (rest : List Tok) (sc : Span) (u : Option Span) (hr : ¬ StartsColon2 rest) :
    parseAnyPath ⟨it.pathToks ++ rest, sc, u⟩ = (.ok ⟨it.lead, it.segs, it.span⟩, ⟨rest, sc, u⟩) := by
  have : it.span = (parseAnyPath_append h).choose := by simp [KeyedItem.span, h]
  rw [this]
  exact (parseAnyPath_append h).choose_spec rest sc u hr

/-- Effects of the items in order. -/
noncomputable def effects [Env] (its : List (KeyedItem κ)) (k : κ) : κ :=
  its.foldl (fun k it => it.effect it.span k) k

theorem Listing.run [Env] {func : Str → Span → M (κ × Stream) Unit} {its : List (KeyedItem κ)}
    {ts : List Tok} (h : Listing its ts) (hh : ∀ it ∈ its, it.Handled func) (k : κ) (sc : Span)
    (u : Option Span) :
    ∃ u', ItemRun (keyStep func) k ⟨ts, sc, u⟩ (.ok ()) (effects its k) ⟨[], sc, u'⟩ := by
  induction h generalizing k u with
  | nil => exact ⟨u, .done rfl⟩
  | one it =>
    have hi := hh it (by simp)
    obtain ⟨u', hu⟩ := hi.run it.span k [] sc u (Or.inl rfl)
    rw [List.append_nil] at hu
    have hne := hi.path.ne_nil
    refine ⟨u', .last (by simp [hne]) ?_ rfl⟩
    rw [keyStep_eq, KeyedItem.span_spec hi.path _ sc u hi.noColon]
    exact hu
  | @cons it c its ts hc _ ih =>
    have hi := hh it (by simp)
    obtain ⟨u', hu⟩ := hi.run it.span k (c :: ts) sc u (Or.inr ⟨c, ts, rfl, hc⟩)
    have hne := hi.path.ne_nil
    obtain ⟨u'', hr⟩ := ih (fun it hm => hh it (by simp [hm])) (it.effect it.span k) u'
    refine ⟨u'', .more (s1 := ⟨c :: ts, sc, u'⟩) (by simp [hne]) ?_ rfl hc hr⟩
    rw [List.append_assoc, keyStep_eq, KeyedItem.span_spec hi.path _ sc u
      (not_startsColon2_append hi.noColon (Or.inr ⟨c, ts, rfl, hc⟩))]
    exact hu

theorem Spread.run [Env] {func : Str → Span → M (κ × Stream) Unit} {its : List (KeyedItem κ)}
    {l : List Stream} (h : Spread its l) (hh : ∀ it ∈ its, it.Handled func) (k : κ) :
    ∃ l', StreamsRun (ItemRun (keyStep func)) k l (.ok ()) (effects its k) l' := by
  induction h generalizing k with
  | nil => exact ⟨[], .nil⟩
  | @cons s its1 its2 rest h1 _ ih =>
    obtain ⟨u', hr⟩ := h1.run (fun it hm => hh it (by simp [hm])) k s.scope s.unexp
    obtain ⟨l', hl⟩ := ih (fun it hm => hh it (by simp [hm])) (effects its1 k)
    refine ⟨_ :: l', .cons hr ?_⟩
    simp only [effects, List.foldl_append] at hl ⊢
    exact hl

/-! ## C09: theorems -/

/-- C09: the result of the named-field loop on well-formed items is the items' effects in order: it
does not depend on how the items are spread over streams, nor on trailing commas. -/
theorem c09_split_independent [Env] (func : Str → Span → M (κ × Stream) Unit)
    (hf : ∀ key sp k s, (func key sp (k, s)).2.2.toks.length ≤ s.toks.length)
    (its : List (KeyedItem κ)) (hh : ∀ it ∈ its, it.Handled func) (k : κ) :
    ∃ k', ∀ l, Spread its l → ∃ l', parseStruct func (k, l) = (.ok (), (k', l')) ∧
      ∀ s ∈ l', s.toks = [] := by
  refine ⟨effects its k, fun l hl => ?_⟩
  obtain ⟨l', hr⟩ := hl.run hh k
  have h : parseStruct func (k, l) = (.ok (), (effects its k, l')) := by
    rw [parseStruct_eq]
    exact items_complete (keyStep_shrinks hf) hr
  exact ⟨l', h, c08_consumes_all func _ _ _ _ h⟩

/-- C09: the common result is the composition of the items' effects in order, each at the span of its
key, the same whatever the layout. -/
theorem c09_result [Env] (func : Str → Span → M (κ × Stream) Unit)
    (hf : ∀ key sp k s, (func key sp (k, s)).2.2.toks.length ≤ s.toks.length) :
    ∃ spanOf : KeyedItem κ → Span, ∀ its : List (KeyedItem κ), (∀ it ∈ its, it.Handled func) →
      ∀ k l, Spread its l → ∃ l',
        parseStruct func (k, l) =
          (.ok (), (its.foldl (fun k it => it.effect (spanOf it) k) k, l')) := by
  refine ⟨KeyedItem.span, fun its hh k l hl => ?_⟩
  obtain ⟨l', hr⟩ := hl.run hh k
  refine ⟨l', ?_⟩
  rw [parseStruct_eq]
  exact items_complete (keyStep_shrinks hf) hr

/-- Non-trivial case: `a = 1, b` on one stream and `a = 1,` then `b` on two are both layouts of the
same two items, which a key-collecting callback handles. -/
example [Env] :
    let a : KeyedItem (List Str) := ⟨false, [['a']], [.ident ['a'] 1],
      [.punct '=' false 2, .lit (.int 1) 3], fun _ k => k ++ [['a']]⟩
    let b : KeyedItem (List Str) := ⟨false, [['b']], [.ident ['b'] 4], [], fun _ k => k ++ [['b']]⟩
    let func : Str → Span → M (List Str × Stream) Unit :=
      fun key _ st => (.ok (), (st.1 ++ [key], skipMetaItem st.2))
    (∀ it ∈ [a, b], it.Handled func) ∧
    Spread [a, b] [⟨[.ident ['a'] 1, .punct '=' false 2, .lit (.int 1) 3, .punct ',' false 7,
      .ident ['b'] 4], 9, none⟩] ∧
    Spread [a, b] [⟨[.ident ['a'] 1, .punct '=' false 2, .lit (.int 1) 3, .punct ',' false 7], 9, none⟩,
      ⟨[.ident ['b'] 4], 9, none⟩] := by
  intro a b func
  refine ⟨?_, ?_, ?_⟩
  · intro it hit
    have hr : ∀ v rest : List Tok, NoComma v → (rest = [] ∨ ∃ c r, rest = c :: r ∧ Comma c) →
        skipToks (v ++ rest) = rest := by
      intro v rest hv hr
      rw [skipToks_append v rest hv]
      rcases hr with rfl | ⟨c, r, rfl, hc⟩
      · rfl
      · simp [skipToks, (isComma_iff c).2 hc]
    rcases List.mem_cons.1 hit with rfl | hit
    · refine ⟨.plain (.one _ _), by rintro ⟨_, _, _, _, h⟩; simp [a] at h, ?_⟩
      intro sp k rest sc u hrest
      refine ⟨u, ?_⟩
      simp only [func, skipMetaItem]
      rw [hr _ _ (by intro t ht; simp [a] at ht; rcases ht with rfl | rfl <;> simp [Comma]) hrest]
      rfl
    · obtain rfl := List.mem_singleton.1 hit
      refine ⟨.plain (.one _ _), by rintro ⟨_, _, _, _, h⟩; simp [b] at h, ?_⟩
      intro sp k rest sc u hrest
      refine ⟨u, ?_⟩
      simp only [func, skipMetaItem]
      rw [hr _ _ (by simp [b, NoComma]) hrest]
      rfl
  · exact .cons (its1 := [a, b]) (.cons a ⟨_, _, rfl⟩ (.one b)) .nil
  · exact .cons (its1 := [a]) (.cons a ⟨_, _, rfl⟩ .nil) (.cons (its1 := [b]) (.one b) .nil)

/-! ## C10 -/

/-- A positional callback that also records, for each call, the index and the streams (current and
following) as they are after the call. -/
def loggedPos (func : Nat → M (κ × List Stream) Unit) :
    Nat → M ((List (Nat × List Stream) × κ) × List Stream) Unit := fun i st =>
  let (r, (k', l')) := func i (st.1.2, st.2)
  (r, ((st.1.1 ++ [(i, l')], k'), l'))

theorem tupleLoop_pos {func : Nat → M (κ × List Stream) Unit} {len : Nat}
    (hf : ∀ i k l, (func i (k, l)).2.2.length = l.length) :
    ∀ (rem c : Nat) (log : List (Nat × List Stream)) (k : κ) (l : List Stream),
      c + rem = len → log.map (·.1) = List.range c → l ≠ [] →
      ∀ r log' k' l', tupleLoop (loggedPos func) rem c ((log, k), l) = (r, ((log', k'), l')) →
        l'.length = l.length ∧
        (∃ c', log'.map (·.1) = List.range c' ∧ c' ≤ len ∧ c ≤ c' ∧
          (∀ b, r = .ok b → b.1 = c' ∧ (b.2 = true → c' = len) ∧
            (b.2 = false → ∃ s rest, l' = s :: rest ∧ s.toks = []) ∧
            (c' = len → (c = len ∧ log' = log ∧ l' = l) ∨
              (c < len ∧ ∃ x, log'.getLast? = some x ∧ l' = x.2)))) := by
  intro rem
  induction rem with
  | zero =>
    intro c log k l hc hidx hne r log' k' l' h
    cases l with
    | nil => exact absurd rfl hne
    | cons s rest =>
      rw [tupleLoop_cons] at h
      split at h
      · rename_i he
        simp only [Prod.mk.injEq] at h
        obtain ⟨rfl, ⟨rfl, rfl⟩, rfl⟩ := h
        refine ⟨rfl, c, hidx, by omega, Nat.le_refl _, fun b hb => ?_⟩
        cases hb
        exact ⟨rfl, by simp, fun _ => ⟨s, rest, rfl, (isEmpty_iff s).1 he⟩,
          fun hcl => Or.inl ⟨hcl, rfl, rfl⟩⟩
      · simp only [Prod.mk.injEq] at h
        obtain ⟨rfl, ⟨rfl, rfl⟩, rfl⟩ := h
        refine ⟨rfl, c, hidx, by omega, Nat.le_refl _, fun b hb => ?_⟩
        cases hb
        exact ⟨rfl, fun _ => by omega, by simp, fun hcl => Or.inl ⟨hcl, rfl, rfl⟩⟩
  | succ rem ih =>
    intro c log k l hc hidx hne r log' k' l' h
    cases l with
    | nil => exact absurd rfl hne
    | cons s rest =>
      rw [tupleLoop_cons] at h
      split at h
      · rename_i he
        simp only [Prod.mk.injEq] at h
        obtain ⟨rfl, ⟨rfl, rfl⟩, rfl⟩ := h
        refine ⟨rfl, c, hidx, by omega, Nat.le_refl _, fun b hb => ?_⟩
        cases hb
        exact ⟨rfl, by simp, fun _ => ⟨s, rest, rfl, (isEmpty_iff s).1 he⟩, fun hcl => by omega⟩
      · simp only at h
        have hlen := hf c k (s :: rest)
        cases hfc : func c (k, s :: rest) with
        | mk rf st1 =>
          obtain ⟨k1, l1⟩ := st1
          rw [hfc] at hlen
          have hlog : loggedPos func c ((log, k), s :: rest) =
              (rf, ((log ++ [(c, l1)], k1), l1)) := by simp only [loggedPos, hfc]
          rw [hlog] at h
          have hidx1 : (log ++ [(c, l1)]).map (·.1) = List.range (c + 1) := by
            rw [List.range_succ]; simp [hidx]
          have hl1 : l1 ≠ [] := by
            intro h0; rw [h0] at hlen; simp at hlen
          have hlast : (log ++ [(c, l1)]).getLast? = some (c, l1) := by simp
          cases rf with
          | ok a =>
            simp only at h
            split at h
            · obtain ⟨i1, c', i2, i3, i4, i5⟩ := ih (c + 1) _ k1 l1 (by omega) hidx1 hl1 _ _ _ _ h
              refine ⟨by rw [i1]; exact hlen, c', i2, i3, by omega, fun b hb => ?_⟩
              obtain ⟨j1, j2, j3, j4⟩ := i5 b hb
              refine ⟨j1, j2, j3, fun hcl => Or.inr ⟨by omega, ?_⟩⟩
              rcases j4 hcl with ⟨_, rfl, rfl⟩ | ⟨_, x, hx, rfl⟩
              · exact ⟨(c, l'), hlast, rfl⟩
              · exact ⟨x, hx, rfl⟩
            · rename_i hcond
              have hrem : rem ≠ 0 := by
                rintro rfl; simp at hcond
              cases l1 with
              | nil => exact absurd rfl hl1
              | cons s1 rest1 =>
                cases hco : parseComma s1 with
                | mk rc s2 =>
                  have hoh : onHead parseComma ((log ++ [(c, s1 :: rest1)], k1), s1 :: rest1) =
                      (rc, ((log ++ [(c, s1 :: rest1)], k1), s2 :: rest1)) := by
                    simp only [onHead, hco]
                  rw [hoh] at h
                  cases rc with
                  | ok a =>
                    simp only at h
                    obtain ⟨i1, c', i2, i3, i4, i5⟩ := ih (c + 1) _ k1 (s2 :: rest1) (by omega)
                      hidx1 (by simp) _ _ _ _ h
                    refine ⟨by rw [i1]; exact hlen, c', i2, i3, by omega, fun b hb => ?_⟩
                    obtain ⟨j1, j2, j3, j4⟩ := i5 b hb
                    refine ⟨j1, j2, j3, fun hcl => Or.inr ⟨by omega, ?_⟩⟩
                    rcases j4 hcl with ⟨hx, _, _⟩ | ⟨_, x, hx, rfl⟩
                    · omega
                    · exact ⟨x, hx, rfl⟩
                  | err e =>
                    simp only [Prod.mk.injEq] at h
                    obtain ⟨rfl, ⟨rfl, rfl⟩, rfl⟩ := h
                    exact ⟨hlen, c + 1, hidx1, by omega, by omega, fun b hb => (by cases hb)⟩
                  | panic =>
                    simp only [Prod.mk.injEq] at h
                    obtain ⟨rfl, ⟨rfl, rfl⟩, rfl⟩ := h
                    exact ⟨hlen, c + 1, hidx1, by omega, by omega, fun b hb => (by cases hb)⟩
          | err e =>
            simp only [Prod.mk.injEq] at h
            obtain ⟨rfl, ⟨rfl, rfl⟩, rfl⟩ := h
            exact ⟨hlen, c + 1, hidx1, by omega, by omega, fun b hb => (by cases hb)⟩
          | panic =>
            simp only [Prod.mk.injEq] at h
            obtain ⟨rfl, ⟨rfl, rfl⟩, rfl⟩ := h
            exact ⟨hlen, c + 1, hidx1, by omega, by omega, fun b hb => (by cases hb)⟩

theorem tupleGo_pos {func : Nat → M (κ × List Stream) Unit} {len : Nat}
    (hf : ∀ i k l, (func i (k, l)).2.2.length = l.length) :
    ∀ (n c : Nat) (log : List (Nat × List Stream)) (k : κ) (l : List Stream),
      n = l.length → c ≤ len → log.map (·.1) = List.range c →
      ∀ r log' k' l', parseTupleStruct.go (loggedPos func) len n c ((log, k), l) =
          (r, ((log', k'), l')) →
        ∃ c', log'.map (·.1) = List.range c' ∧ c' ≤ len ∧ c ≤ c' ∧
          (∀ b, r = .ok b → b = c' ∧ (c' < len → ∀ s ∈ l', s.toks = []) ∧
            (c' = len → (c = len ∧ log' = log ∧ l' = l) ∨
              (c < len ∧ ∃ x pre, log'.getLast? = some x ∧ l' = pre ++ x.2 ∧ ∀ s ∈ pre, s.toks = []))) := by
  intro n
  induction n with
  | zero =>
    intro c log k l hn hc hidx r log' k' l' h
    simp only [parseTupleStruct.go, Prod.mk.injEq] at h
    obtain ⟨rfl, ⟨rfl, rfl⟩, rfl⟩ := h
    have : l = [] := List.length_eq_zero_iff.1 hn.symm
    subst this
    refine ⟨c, hidx, hc, Nat.le_refl _, fun b hb => ?_⟩
    cases hb
    exact ⟨rfl, by simp, fun hcl => Or.inl ⟨hcl, rfl, rfl⟩⟩
  | succ n ih =>
    intro c log k l hn hc hidx r log' k' l' h
    have hne : l ≠ [] := by rintro rfl; simp at hn
    simp only [parseTupleStruct.go] at h
    cases ht : tupleLoop (loggedPos func) (len - c) c ((log, k), l) with
    | mk rt st =>
      obtain ⟨⟨log1, k1⟩, l1⟩ := st
      rw [ht] at h
      obtain ⟨i1, c1, i2, i3, i4, i5⟩ :=
        tupleLoop_pos (len := len) hf (len - c) c log k l (by omega) hidx hne _ _ _ _ ht
      cases rt with
      | ok b =>
        obtain ⟨cb, b⟩ := b
        obtain ⟨j1, j2, j3, j4⟩ := i5 _ rfl
        simp only at j1 j2 j3
        subst j1
        cases b with
        | true =>
          simp only [Prod.mk.injEq] at h
          obtain ⟨rfl, ⟨rfl, rfl⟩, rfl⟩ := h
          have hcl := j2 rfl
          refine ⟨cb, i2, i3, i4, fun b hb => ?_⟩
          cases hb
          refine ⟨rfl, fun h => by omega, fun _ => ?_⟩
          rcases j4 hcl with h | ⟨h1, x, h2, h3⟩
          · exact Or.inl h
          · exact Or.inr ⟨h1, x, [], h2, by simpa using h3, by simp⟩
        | false =>
          obtain ⟨s1, rest1, rfl, hs1⟩ := j3 rfl
          simp only at h
          cases hg : parseTupleStruct.go (loggedPos func) len n cb ((log1, k1), rest1) with
          | mk r2 st2 =>
            obtain ⟨⟨log2, k2⟩, rest2⟩ := st2
            rw [hg] at h
            simp only [Prod.mk.injEq] at h
            obtain ⟨rfl, ⟨rfl, rfl⟩, rfl⟩ := h
            simp only [List.length_cons] at i1
            obtain ⟨c2, q1, q2, q3, q4⟩ := ih cb log1 k1 rest1 (by omega) i3 i2 _ _ _ _ hg
            refine ⟨c2, q1, q2, by omega, fun b hb => ?_⟩
            obtain ⟨p1, p2, p3⟩ := q4 b hb
            refine ⟨p1, fun hlt s hs => ?_, fun hcl => ?_⟩
            · rcases List.mem_cons.1 hs with rfl | hs
              · exact hs1
              · exact p2 hlt s hs
            · rcases p3 hcl with ⟨e1, rfl, rfl⟩ | ⟨e1, x, pre, e2, e3, e4⟩
              · rcases j4 e1 with ⟨f1, rfl, rfl⟩ | ⟨f1, x, f2, f3⟩
                · exact Or.inl ⟨f1, rfl, rfl⟩
                · exact Or.inr ⟨f1, x, [], f2, by simpa using f3, by simp⟩
              · refine Or.inr ⟨by omega, x, s1 :: pre, e2, by simp [e3], ?_⟩
                intro s hs
                rcases List.mem_cons.1 hs with rfl | hs
                · exact hs1
                · exact e4 s hs
      | err e =>
        simp only [Prod.mk.injEq] at h
        obtain ⟨rfl, ⟨rfl, rfl⟩, rfl⟩ := h
        exact ⟨c1, i2, i3, i4, fun b hb => (by cases hb)⟩
      | panic =>
        simp only [Prod.mk.injEq] at h
        obtain ⟨rfl, ⟨rfl, rfl⟩, rfl⟩ := h
        exact ⟨c1, i2, i3, i4, fun b hb => (by cases hb)⟩

/-- C10: the recorded calls have the indices `0, 1, 2, …` below `len`; on success the returned count
is their number; below `len` everything was consumed; and once `len` items were read nothing more is
consumed: the streams are those left by the last call, after emptied ones, or untouched when
`len = 0`. -/
theorem c10_positional_loop (func : Nat → M (κ × List Stream) Unit)
    (hf : ∀ i k l, (func i (k, l)).2.2.length = l.length) (len : Nat) (k k' : κ)
    (l l' : List Stream) (r : Res Nat) (log : List (Nat × List Stream))
    (h : parseTupleStruct (loggedPos func) len (([], k), l) = (r, ((log, k'), l'))) :
    log.map (·.1) = List.range log.length ∧ log.length ≤ len ∧
    (∀ count, r = .ok count → count = log.length ∧
      (count < len → ∀ s ∈ l', s.toks = []) ∧
      (count = len → len = 0 → l' = l) ∧
      (count = len → 0 < len → ∃ x pre, log.getLast? = some x ∧ l' = pre ++ x.2 ∧
        ∀ s ∈ pre, s.toks = [])) := by
  obtain ⟨c, h1, h2, _, h4⟩ := tupleGo_pos hf l.length 0 [] k l rfl (Nat.zero_le _) rfl r log k' l' h
  have hlen : log.length = c := by
    have := congrArg List.length h1
    simpa using this
  subst hlen
  refine ⟨h1, h2, fun count hc => ?_⟩
  obtain ⟨p1, p2, p3⟩ := h4 count hc
  subst p1
  refine ⟨rfl, p2, fun hcl h0 => ?_, fun hcl h0 => ?_⟩
  · rcases p3 hcl with ⟨_, _, h⟩ | ⟨h, _⟩
    · exact h
    · omega
  · rcases p3 hcl with ⟨h, _⟩ | ⟨_, x, pre, h⟩
    · omega
    · exact ⟨x, pre, h⟩

/-- Non-trivial case: two positions from the stream `a, b, c`; the second comma and `c` stay. -/
example : ∃ l1 l2,
    parseTupleStruct (loggedPos (κ := Unit) fun _ => stepHead fun st => (.ok (), (st.1, dropTok st.2))) 2
      (([], ()), [⟨[.ident ['a'] 1, .punct ',' false 2, .ident ['b'] 3, .punct ',' false 4,
        .ident ['c'] 5], 9, none⟩]) =
      (.ok 2, (([(0, l1), (1, l2)], ()), [⟨[.punct ',' false 4, .ident ['c'] 5], 9, none⟩])) :=
  ⟨[⟨[.punct ',' false 2, .ident ['b'] 3, .punct ',' false 4, .ident ['c'] 5], 9, none⟩],
    [⟨[.punct ',' false 4, .ident ['c'] 5], 9, none⟩], by
      simp [parseTupleStruct, parseTupleStruct.go, tupleLoop_cons, loggedPos, stepHead, dropTok,
        onHead, parseComma, parsePunct, Stream.isEmpty, Tok.isPunct]⟩

/-- C10, the callback's own effect is that of the unrecorded loop. -/
theorem c10_log_faithful (func : Nat → M (κ × List Stream) Unit) (len : Nat) (k : κ)
    (l : List Stream) :
    let r := parseTupleStruct (loggedPos func) len (([], k), l)
    parseTupleStruct func len (k, l) = (r.1, (r.2.1.2, r.2.2)) := by
  have hloop : ∀ (rem c : Nat) (log : List (Nat × List Stream)) (k : κ) (l : List Stream),
      tupleLoop func rem c (k, l) =
        ((tupleLoop (loggedPos func) rem c ((log, k), l)).1,
          ((tupleLoop (loggedPos func) rem c ((log, k), l)).2.1.2,
            (tupleLoop (loggedPos func) rem c ((log, k), l)).2.2)) := by
    intro rem
    induction rem with
    | zero =>
      intro c log k l
      cases l with
      | nil => simp [tupleLoop_nil]
      | cons s rest => simp only [tupleLoop_cons]; split <;> rfl
    | succ rem ih =>
      intro c log k l
      cases l with
      | nil => simp [tupleLoop_nil]
      | cons s rest =>
        simp only [tupleLoop_cons]
        split
        · rfl
        · cases hfc : func c (k, s :: rest) with
          | mk rf st1 =>
            obtain ⟨k1, l1⟩ := st1
            have hlog : loggedPos func c ((log, k), s :: rest) =
                (rf, ((log ++ [(c, l1)], k1), l1)) := by simp only [loggedPos, hfc]
            rw [hlog]
            cases rf with
            | ok a =>
              simp only
              split
              · exact ih _ _ _ _
              · cases l1 with
                | nil => rfl
                | cons s1 rest1 =>
                  simp only [onHead]
                  cases parseComma s1 with
                  | mk rc s2 =>
                    cases rc with
                    | ok a => exact ih _ _ _ _
                    | err e => rfl
                    | panic => rfl
            | err e => rfl
            | panic => rfl
  have hgo : ∀ (n c : Nat) (log : List (Nat × List Stream)) (k : κ) (l : List Stream),
      parseTupleStruct.go func len n c (k, l) =
        ((parseTupleStruct.go (loggedPos func) len n c ((log, k), l)).1,
          ((parseTupleStruct.go (loggedPos func) len n c ((log, k), l)).2.1.2,
            (parseTupleStruct.go (loggedPos func) len n c ((log, k), l)).2.2)) := by
    intro n
    induction n with
    | zero => intro c log k l; rfl
    | succ n ih =>
      intro c log k l
      simp only [parseTupleStruct.go]
      rw [hloop (len - c) c log k l]
      cases tupleLoop (loggedPos func) (len - c) c ((log, k), l) with
      | mk rt st =>
        obtain ⟨⟨log1, k1⟩, l1⟩ := st
        cases rt with
        | ok b =>
          obtain ⟨cb, b⟩ := b
          cases b with
          | true => rfl
          | false =>
            cases l1 with
            | nil => rfl
            | cons s1 rest1 =>
              simp only
              rw [ih cb log1 k1 rest1]
        | err e => rfl
        | panic => rfl
  exact hgo l.length 0 [] k l

end Deluxe
