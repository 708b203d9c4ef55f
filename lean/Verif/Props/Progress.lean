import Verif.Lemmas.Types
/-!
# C55: progress and termination of the provided implementations

A loop that would run forever runs out of fuel in the model, whatever the fuel, and is then a `panic`
outcome; so "never `panic`" includes termination.
-/
namespace Deluxe

/-! ## Specification -/

/-- A parser on one stream always ends, does not panic, and leaves a suffix of its stream. -/
def Forward {α : Type} (p : M Stream α) : Prop :=
  ∀ s, (p s).1 ≠ .panic ∧ (p s).2.toks <:+ s.toks ∧ (p s).2.scope = s.scope ∧
    (∀ sp, s.unexp = some sp → (p s).2.unexp = some sp)

/-- The same for a parser on several streams: as many streams as before, each a suffix. -/
def ForwardL {α : Type} (p : M (List Stream) α) : Prop :=
  ∀ l, (p l).1 ≠ .panic ∧ (p l).2.length = l.length ∧
    ∀ (i : Nat) (s s' : Stream), l[i]? = some s → (p l).2[i]? = some s' → s'.toks <:+ s.toks ∧ s'.scope = s.scope ∧
      (∀ sp, s.unexp = some sp → s'.unexp = some sp)

/-- The implementations of `ParseMetaItem` provided by the library, closed under the type
constructors, on any types of the user that end and move forward themselves (for derived structures this is
C30).  `Punctuated` is treated separately below. -/
inductive Provided [Env] : {α : Type} → Dict α → Prop
  | int {α : Type} (conv : Bool × Nat → Option α) : Provided (intDict conv)
  | u8 : Provided u8Dict
  | bool : Provided boolDict
  | char : Provided charDict
  | string : Provided stringDict
  | ident : Provided identDict
  | syn {α : Type} {p : M Stream α} : Forward p → Provided (synDict p)
  | synParen {α : Type} {p : M Stream α} : Forward p → Provided (synParenDict p)
  | tokenTree : Provided tokenTreeDict
  | literal : Provided literalDict
  | punct : Provided punctDict
  | group : Provided groupDict
  | unit : Provided unitDict
  | tokenStream : Provided tokenStreamDict
  | flag : Provided flagDict
  | option {α : Type} {d : Dict α} : Provided d → Provided (optionDict d)
  | wrapper {α : Type} {d : Dict α} : Provided d → Provided (wrapperDict d)
  | spanned {α : Type} {d : Dict α} : Provided d → Provided (spannedDict d)
  | map {α β : Type} (f : α → β) {d : Dict α} : Provided d → Provided (d.map f)
  | array {α : Type} (n : Nat) {d : Dict α} : Provided d → Provided (arrayDict n d)
  | tuple {α : Type} {ds : List (Dict α)} : (∀ d ∈ ds, Provided d) → Provided (tupleDict ds)
  | seq {α : Type} {d : Dict α} : Provided d → Provided (seqDict d)
  | set {α : Type} [DecidableEq α] {d : Dict α} : Provided d → Provided (setDict d)
  | mapColl {κ ν : Type} [DecidableEq κ] {kd : Dict κ} {vd : Dict ν} (keyStr : κ → Str) :
      Provided kd → Provided vd → Provided (mapDict kd keyStr vd)
  | user {α : Type} {d : Dict α} : (∀ m, Forward (d.parse m)) → (∀ m, ForwardL (d.inline m)) →
      (∀ sp, d.flag sp ≠ .panic) → (∀ n sp, Forward (d.named n sp)) →
      (∀ n sp, d.missing n sp ≠ .panic) → Provided d

/-! ## Lemmas -/

theorem Good.forward {α} {p : M Stream α} (h : Good p) : Forward p :=
  fun s => ⟨(h s).1, (h s).2.toks, (h s).2.scope, fun sp hs => by
    rw [(h s).2.unexp (by simp [hs]), hs]⟩

theorem Forward.good {α} {p : M Stream α} (h : Forward p) : Good p :=
  fun s => ⟨(h s).1, (h s).2.1, (h s).2.2.1, fun hs => by
    cases hu : s.unexp with
    | none => simp [hu] at hs
    | some sp => exact (h s).2.2.2 sp hu⟩

theorem AdvL.get {l' l : List Stream} (h : AdvL l' l) {i : Nat} {s s' : Stream} (hs : l[i]? = some s)
    (hs' : l'[i]? = some s') : Adv s' s := by
  induction h generalizing i with
  | nil => simp at hs
  | cons ha _ ih =>
    cases i with
    | zero => simp at hs hs'; subst hs; subst hs'; exact ha
    | succ i => simp at hs hs'; exact ih hs hs'

theorem Good.forwardL {α} {p : M (List Stream) α} (h : Good p) : ForwardL p :=
  fun l => ⟨(h l).1, (h l).2.length, fun i s s' hs hs' =>
    have ha := (h l).2.get hs hs'
    ⟨ha.toks, ha.scope, fun sp hsp => by rw [ha.unexp (by simp [hsp]), hsp]⟩⟩

theorem AdvL.of_get {l' l : List Stream} (hl : l'.length = l.length)
    (h : ∀ (i : Nat) (s s' : Stream), l[i]? = some s → l'[i]? = some s' → Adv s' s) : AdvL l' l := by
  induction l generalizing l' with
  | nil =>
    rw [List.length_eq_zero_iff.1 hl]
    exact .nil
  | cons s l ih =>
    cases l' with
    | nil => simp at hl
    | cons s' l' =>
      exact .cons (h 0 s s' rfl rfl) (ih (by simpa using hl) fun i a b ha hb =>
        h (i + 1) a b (by simpa using ha) (by simpa using hb))

theorem ForwardL.good {α} {p : M (List Stream) α} (h : ForwardL p) : Good p :=
  fun l => ⟨(h l).1, AdvL.of_get (h l).2.1 fun i s s' hs hs' => by
    obtain ⟨h1, h2, h3⟩ := (h l).2.2 i s s' hs hs'
    refine ⟨h1, h2, fun hu => ?_⟩
    cases hx : s.unexp with
    | none => simp [hx] at hu
    | some sp => exact h3 sp hx⟩

theorem Provided.good [Env] {α : Type} {d : Dict α} (h : Provided d) : d.Good := by
  induction h with
  | int conv => exact intDict_good conv
  | u8 => exact u8Dict_good
  | bool => exact boolDict_good
  | char => exact charDict_good
  | string => exact stringDict_good
  | ident => exact identDict_good
  | syn h => exact synDict_good h.good
  | synParen h => exact synParenDict_good h.good
  | tokenTree => exact tokenTreeDict_good
  | literal => exact literalDict_good
  | punct => exact punctDict_good
  | group => exact groupDict_good
  | unit => exact unitDict_good
  | tokenStream => exact tokenStreamDict_good
  | flag => exact flagDict_good
  | option _ ih => exact optionDict_good ih
  | wrapper _ ih => exact wrapperDict_good ih
  | spanned _ ih => exact spannedDict_good ih
  | map f _ ih => exact Dict.map_good f ih
  | array n _ ih => exact arrayDict_good n ih.parse
  | tuple _ ih => exact tupleDict_good fun d hd => (ih d hd).parse
  | seq _ ih => exact seqDict_good ih.parse
  | set _ ih => exact setDict_good ih.parse
  | mapColl keyStr _ _ ihk ihv => exact mapDict_good keyStr ihk.parse ihv.named
  | user h1 h2 h3 h4 h5 => exact ⟨fun m => (h1 m).good, fun m => (h2 m).good, h3, fun n sp => (h4 n sp).good, h5⟩

/-! ## Theorems -/

/-- C55: every method of every provided implementation ends without panic, on every input, and only
moves the streams forward. -/
theorem c55_provided [Env] {α : Type} {d : Dict α} (h : Provided d) :
    (∀ m, Forward (d.parse m)) ∧ (∀ m, ForwardL (d.inline m)) ∧ (∀ sp, d.flag sp ≠ .panic) ∧
      (∀ n sp, Forward (d.named n sp)) ∧ (∀ n sp, d.missing n sp ≠ .panic) :=
  have g := h.good
  ⟨fun m => (g.parse m).forward, fun m => (g.inline m).forwardL, g.flag,
    fun n sp => (g.named n sp).forward, g.missing⟩

/-- C55 for the flattened, `append` and `rest` parsers. -/
theorem c55_flat [Env] {α κ ν : Type} [DecidableEq α] [DecidableEq κ] {d : Dict α} {kd : Dict κ}
    {vd : Dict ν} {ds : List (Dict α)} (keyStr : κ → Str) (h : Provided d) (hk : Provided kd)
    (hv : Provided vd) (hs : ∀ d ∈ ds, Provided d) (m : Mode) (i n : Nat) (names : List Str) :
    ForwardL (tokenStreamFlat.parse m i) ∧ ForwardL ((arrayFlat n d).parse m i) ∧
    ForwardL ((tupleFlat ds).parse m i) ∧ ForwardL ((seqFlat d).parse m i) ∧
    ForwardL ((setFlat d).parse m i) ∧ ForwardL ((mapFlat kd keyStr vd).parse m i) ∧
    ForwardL (seqAppend d names) ∧ ForwardL (setAppend d names) ∧
    ForwardL (mapRest kd keyStr vd names) ∧
    ForwardL ((spannedFlatUnnamed (seqFlat d)).parse m i) ∧
    ForwardL (spannedAppend (seqAppend d) names) ∧
    ForwardL (spannedRest (mapRest kd keyStr vd) names) :=
  have g := h.good
  ⟨(tokenStreamFlat_good m i).forwardL, (arrayFlat_good n g.parse m i).forwardL,
    (tupleFlat_good (fun d hd => (hs d hd).good.parse) m i).forwardL,
    (seqFlat_good g.parse m i).forwardL, (setFlat_good g.parse m i).forwardL,
    (mapFlat_good keyStr hk.good.parse hv.good.named m i).forwardL,
    (seqAppend_good g.named names).forwardL, (setAppend_good g.named names).forwardL,
    (mapRest_good keyStr hk.good.parse hv.good.named names).forwardL,
    (spannedFlat_good (seqFlat_good g.parse m i)).forwardL,
    (spannedFlat_good (seqAppend_good g.named names)).forwardL,
    (spannedFlat_good (mapRest_good keyStr hk.good.parse hv.good.named names)).forwardL⟩

/-- C55 for the item loops with any callback that itself ends and moves forward. -/
theorem c55_loops [Env] {κ : Type} (func : Str → Span → M (κ × Stream) Unit)
    (hf : ∀ key sp k s, (func key sp (k, s)).1 ≠ .panic ∧ Adv (func key sp (k, s)).2.2 s)
    (k : κ) (l : List Stream) :
    (parseStruct func (k, l)).1 ≠ .panic ∧ AdvL (parseStruct func (k, l)).2.2 l :=
  parseStruct_good (func := func) (fun key sp st => hf key sp st.1 st.2) (k, l)

/-- Non-trivial case: a nested type is provided. -/
example [Env] : Provided (seqDict (tupleDict [optionDict stringDict, stringDict.map some])) :=
  .seq (.tuple (by
    intro d hd
    simp only [List.mem_cons, List.not_mem_nil, or_false] at hd
    rcases hd with rfl | rfl
    · exact .option .string
    · exact .map some .string))

/-! ## Punctuated -/

theorem punctSkip_good {peekP : Stream → Bool} {parseP : M Stream Unit} (hp : Good parseP)
    (he : ∀ s s', parseP s = (.ok (), s') → s'.toks.length < s.toks.length) :
    ∀ (ts : List Tok) (s : Stream), s.toks = ts →
      (punctSkip peekP parseP ts s).1 ≠ .panic ∧ Adv (punctSkip peekP parseP ts s).2 s ∧
      ((punctSkip peekP parseP ts s).1 = .ok () → ts ≠ [] →
        (punctSkip peekP parseP ts s).2.toks.length < ts.length) := by
  intro ts
  induction ts with
  | nil => intro s hs; exact ⟨by simp [punctSkip], Adv.refl s, by simp⟩
  | cons t ts ih =>
    intro s hs
    simp only [punctSkip]
    split
    · refine ⟨(hp s).1, (hp s).2, fun h _ => ?_⟩
      rw [← hs]
      exact he s _ (Prod.ext h rfl)
    · obtain ⟨i1, i2, i3⟩ := ih { s with toks := ts } rfl
      refine ⟨i1, i2.trans (.toks_of s (by rw [hs]; exact List.suffix_cons _ _)), fun _ _ => ?_⟩
      have := i2.length
      simp only [List.length_cons] at this ⊢
      omega

theorem punctLoop_good {α} {item : M Stream α} {peekP : Stream → Bool} {parseP : M Stream Unit}
    (hi : Good item) (hie : ∀ s a s', item s = (.ok a, s') → s'.toks.length < s.toks.length)
    (hp : Good parseP) (hpe : ∀ s s', parseP s = (.ok (), s') → s'.toks.length < s.toks.length) :
    ∀ (n : Nat) (st : Acc (List α) × Stream), st.2.toks.length < n →
      (punctLoop item peekP parseP n st).1 ≠ .panic ∧
        Adv (punctLoop item peekP parseP n st).2.2 st.2 := by
  intro n
  induction n with
  | zero => intro st h; omega
  | succ n ih =>
    rintro ⟨acc, s⟩ h
    simp only [punctLoop]
    split
    · exact ⟨by simp, .refl s⟩
    · rename_i hne
      obtain ⟨g1, g2⟩ := hi s
      split
      · rename_i v s' hv
        rw [hv] at g2
        have hlt := hie s v s' hv
        split
        · obtain ⟨i1, i2⟩ := ih ({ acc with val := acc.val ++ [v] }, s') (by simp only at h ⊢; omega)
          exact ⟨i1, i2.trans g2⟩
        · obtain ⟨p1, p2⟩ := hp s'
          split
          · rename_i hq; rw [hq] at p2; exact ⟨by simp, Adv.trans p2 g2⟩
          · rename_i e s'' hq
            rw [hq] at p2
            have := Adv.length p2
            obtain ⟨i1, i2⟩ := ih (⟨acc.val ++ [v], acc.errs.pushSyn e⟩, s'')
              (by simp only at h this ⊢; omega)
            exact ⟨i1, i2.trans (Adv.trans p2 g2)⟩
          · rename_i hq; rw [hq] at p1; exact absurd rfl p1
      · rename_i e s' hv
        rw [hv] at g2
        obtain ⟨q1, q2, q3⟩ := punctSkip_good (peekP := peekP) hp hpe s'.toks s' rfl
        split
        · rename_i s'' hq
          rw [hq] at q2 q3
          have hl := Adv.length g2
          have hl2 := q2.length
          obtain ⟨i1, i2⟩ := ih ({ acc with errs := acc.errs.pushSyn e }, s'') (by
            by_cases hs' : s'.toks = []
            · have h0 : s.toks.length ≠ 0 := by
                cases hst : s.toks with
                | nil => simp [Stream.isEmpty, hst] at hne
                | cons => simp
              simp only [hs', List.length_nil] at hl2
              simp only at h ⊢; omega
            · have := q3 rfl hs'
              simp only at h hl this ⊢; omega)
          exact ⟨i1, i2.trans (q2.trans g2)⟩
        · rename_i hq; rw [hq] at q2; exact ⟨by simp, q2.trans g2⟩
        · rename_i hq; rw [hq] at q1; exact absurd rfl q1
      · rename_i hv; rw [hv] at g1; exact absurd rfl g1

/-- C55 for `Punctuated<T, P>`, with what is missing: `T` must consume at least one token whenever it
succeeds (`P` always does).  Without that the loop may run forever, see `c55_punctuated_diverges`. -/
theorem c55_punctuated_partial {α} {d : Dict α} {peekP : Stream → Bool} {parseP : M Stream Unit}
    (hi : Forward (d.parse .unnamed))
    (hie : ∀ s a s', d.parse .unnamed s = (.ok a, s') → s'.toks.length < s.toks.length)
    (hp : Forward parseP)
    (hpe : ∀ s s', parseP s = (.ok (), s') → s'.toks.length < s.toks.length) (m : Mode) (i : Nat) :
    ForwardL ((punctFlat d peekP parseP).parse m i) ∧
    ForwardL ((punctuatedDict d peekP parseP).inline m) ∧
    Forward ((punctuatedDict d peekP parseP).parse m) := by
  have g : ∀ m i, Good ((punctFlat d peekP parseP).parse m i) := fun _ _ =>
    runAcc_good [] (forStreams_good (punctLoop_good hi.good hie hp.good hpe))
  exact ⟨(g m i).forwardL, (g m 0).forwardL,
    (parseDelimitedWith_good .bracket (single_good (g .unnamed 0))).forward⟩

/-- Non-trivial case: identifiers separated by `;`. -/
example : Forward (identDict.parse .unnamed) ∧
    (∀ s a s', identDict.parse .unnamed s = (.ok a, s') → s'.toks.length < s.toks.length) ∧
    Forward (parsePunct ';') ∧
    (∀ s s', parsePunct ';' s = (.ok (), s') → s'.toks.length < s.toks.length) := by
  refine ⟨(identDict_good.parse _).forward, ?_, (parsePunct_good ';').forward, ?_⟩
  · intro s a s' h
    simp only [identDict, Dict.mk', parseIdentAny] at h
    split at h
    · rename_i heq
      simp only [Prod.mk.injEq] at h
      rw [← h.2, heq]; simp
    · simp at h
  · intro s s' h
    simp only [parsePunct] at h
    split at h
    · rename_i heq
      split at h
      · simp only [Prod.mk.injEq] at h
        rw [← h.2, heq]; simp
      · simp at h
    · simp at h

/-- C55 is false for `Punctuated<T, P>` in general: when `T` may succeed without consuming anything,
then on any stream that does not start with the separator the loop of
core/parse_meta.rs:1231-1253 never ends, whatever number of iterations it is granted. -/
theorem c55_punctuated_diverges {α} (v : α) (peekP : Stream → Bool) (t : Tok) (rest : List Tok)
    (sc : Span) (u : Option Span) (e : SynErr) {parseP : M Stream Unit}
    (hp : parseP ⟨t :: rest, sc, u⟩ = (.err e, ⟨t :: rest, sc, u⟩)) :
    (∀ fuel acc, (punctLoop (fun s => (.ok v, s)) peekP parseP fuel (acc, ⟨t :: rest, sc, u⟩)).1 =
      .panic) ∧
    (∀ m i more, ((punctFlat (synDict fun s => (.ok v, s)) peekP parseP).parse m i
      (⟨t :: rest, sc, u⟩ :: more)).1 = .panic) := by
  have h1 : ∀ fuel acc, (punctLoop (fun s => (.ok v, s)) peekP parseP fuel
      (acc, ⟨t :: rest, sc, u⟩)).1 = .panic := by
    intro fuel
    induction fuel with
    | zero => intro acc; rfl
    | succ n ih =>
      intro acc
      simp only [punctLoop, Stream.isEmpty, List.isEmpty_cons, Bool.false_eq_true, if_false, hp]
      exact ih _
  refine ⟨h1, fun m i more => ?_⟩
  have h2 := h1 ((t :: rest).length + 1) ⟨[], Errors.new⟩
  simp only [punctFlat, runAcc, forStreams, forStreams.go, synDict, Dict.mk']
  cases hr : punctLoop (fun s => (.ok v, s)) peekP parseP ((t :: rest).length + 1)
    (⟨[], Errors.new⟩, ⟨t :: rest, sc, u⟩) with
  | mk r st =>
    rw [hr] at h2
    simp only at h2
    subst h2
    rfl

/-- Non-trivial case: the separator `;` and the stream `x`. -/
example : parsePunct ';' ⟨[.ident ['x'] 3], 0, none⟩ =
    (.err (.new 3 (.expectedPunct [';'])), ⟨[.ident ['x'] 3], 0, none⟩) := rfl

end Deluxe
