import Verif.Lemmas.Tuple
import Verif.Model.Types
import Verif.Props.Errors
/-!
# Progress of the provided implementations
-/
namespace Deluxe

/-- All five methods of a `ParseMetaItem` implementation only move forward and never panic. -/
structure Dict.Good {α : Type} (d : Dict α) : Prop where
  parse : ∀ m, Deluxe.Good (d.parse m)
  inline : ∀ m, Deluxe.Good (d.inline m)
  flag : ∀ sp, d.flag sp ≠ .panic
  named : ∀ n sp, Deluxe.Good (d.named n sp)
  missing : ∀ n sp, d.missing n sp ≠ .panic

def FlatUnnamed.Good {α : Type} (d : FlatUnnamed α) : Prop := ∀ m i, Deluxe.Good (d.parse m i)
def FlatNamed.Good {α : Type} (d : FlatNamed α) : Prop := ∀ m p v, Deluxe.Good (d.parse m p v)

theorem parseNamedMetaItem_good {α} {parse : Mode → M Stream α} {inline : Mode → M (List Stream) α}
    {flag : Span → Res α} (hp : ∀ m, Good (parse m)) (hi : ∀ m, Good (inline m))
    (hf : ∀ sp, flag sp ≠ .panic) (sp : Span) : Good (parseNamedMetaItem parse inline flag sp) := by
  intro s
  unfold parseNamedMetaItem
  split
  · exact (parsePunct_good '=').bind (fun _ => hp _) s
  · split
    · exact parseDelimitedWith_good _ (single_good (hi _)) s
    · exact ⟨hf sp, .refl s⟩

theorem Dict.mk'_good {α} {parse : Mode → M Stream α} {inline : Mode → M (List Stream) α}
    {flag : Span → Res α} {missing : Str → Span → Res α} (hp : ∀ m, Deluxe.Good (parse m))
    (hi : ∀ m, Deluxe.Good (inline m)) (hf : ∀ sp, flag sp ≠ .panic)
    (hm : ∀ n sp, missing n sp ≠ .panic) : (Dict.mk' parse inline flag missing).Good :=
  ⟨hp, hi, hf, fun _ sp => parseNamedMetaItem_good hp hi hf sp, hm⟩

theorem Dict.map_good {α β} (f : α → β) {d : Dict α} (h : d.Good) : (d.map f).Good :=
  ⟨fun m => (h.parse m).map f, fun m => (h.inline m).map f,
    fun sp => by
      have := h.flag sp
      simp only [Dict.map]
      cases hr : d.flag sp <;> simp_all [Res.map],
    fun n sp => (h.named n sp).map f,
    fun n sp => by
      have := h.missing n sp
      simp only [Dict.map]
      cases hr : d.missing n sp <;> simp_all [Res.map]⟩

/-! ## Primitives -/

theorem expectLit_good {α} (what : Str) (f : LitVal → Option α) : Good (expectLit what f) := by
  intro s
  have hs : ∀ l rest, parseLitToks s.toks = some (l, rest) → rest <:+ s.toks := by
    intro l rest h
    unfold parseLitToks at h
    split at h
    · rename_i heq; simp at h; rw [heq, ← h.2]; exact List.suffix_cons _ _
    · rename_i heq
      split at h
      · simp at h; rw [heq, ← h.2]; exact List.suffix_cons _ _
      · split at h
        · simp at h; rw [heq, ← h.2]; exact List.suffix_cons _ _
        · simp at h
    · rename_i heq; simp at h; rw [heq, ← h.2]; exact ⟨[_, _], rfl⟩
    · rename_i heq; simp at h; rw [heq, ← h.2]; exact ⟨[_, _], rfl⟩
    · simp at h
  unfold expectLit
  split
  · rename_i l rest h
    split
    · exact ⟨by simp, .toks_of s (hs _ _ h)⟩
    · exact ⟨by simp, .toks_of s (hs _ _ h)⟩
  · exact ⟨by simp, .refl s⟩

theorem parseIdentAny_good : Good parseIdentAny := by
  intro s
  unfold parseIdentAny
  split
  · rename_i heq; exact ⟨by simp, .toks_of s (by rw [heq]; exact List.suffix_cons _ _)⟩
  · exact ⟨by simp, .refl s⟩

theorem dfltFlag_ne {α : Type} (sp : Span) : (Res.err (flagDisallowedError sp) : Res α) ≠ .panic := by
  simp
theorem dfltMissing_ne {α : Type} (n : Str) (sp : Span) :
    (Res.err (missingFieldError n sp) : Res α) ≠ .panic := by simp

/-- An implementation that only gives `parse_meta_item`. -/
theorem Dict.mk'_good_parse {α} {parse : Mode → M Stream α} (hp : ∀ m, Deluxe.Good (parse m)) :
    (Dict.mk' parse).Good :=
  Dict.mk'_good hp (parseFirst_good hp) dfltFlag_ne dfltMissing_ne

theorem intDict_good {α} (conv : Bool × Nat → Option α) : (intDict conv).Good := by
  refine Dict.mk'_good_parse fun m s => ?_
  have := expectLit_good "integer literal".toList (fun
    | .lit (.int n) => some (false, n)
    | .neg (.int n) => some (true, n)
    | _ => none) s
  change (parseLitInt s).1 ≠ _ ∧ Adv (parseLitInt s).2 s at this
  split
  · rename_i h; rw [h] at this
    split
    · exact ⟨by simp, this.2⟩
    · exact ⟨by simp, this.2⟩
  · rename_i h; rw [h] at this; exact ⟨by simp, this.2⟩
  · rename_i h; rw [h] at this; simp at this

theorem u8Dict_good : u8Dict.Good := by
  refine Dict.mk'_good_parse fun m s => ?_
  split
  · rename_i heq; exact ⟨by simp, .toks_of s (by rw [heq]; exact List.suffix_cons _ _)⟩
  · rename_i heq
    split
    · exact ⟨by simp, .toks_of s (by rw [heq]; exact List.suffix_cons _ _)⟩
    · exact ⟨by simp, .toks_of s (by rw [heq]; exact List.suffix_cons _ _)⟩
  · rename_i heq; exact ⟨by simp, .toks_of s (by rw [heq]; exact ⟨[_, _], rfl⟩)⟩
  · exact ⟨by simp, .refl s⟩

theorem boolDict_good : boolDict.Good :=
  Dict.mk'_good (fun _ => expectLit_good _ _) (parseFirst_good fun _ => expectLit_good _ _)
    (by simp) dfltMissing_ne

theorem charDict_good : charDict.Good := Dict.mk'_good_parse fun _ => expectLit_good _ _
theorem stringDict_good : stringDict.Good := Dict.mk'_good_parse fun _ => expectLit_good _ _
theorem identDict_good : identDict.Good := Dict.mk'_good_parse fun _ => parseIdentAny_good

theorem synDict_good {α} {p : M Stream α} (hp : Good p) : (synDict p).Good :=
  Dict.mk'_good_parse fun _ => hp

theorem synParenDict_good {α} {p : M Stream α} (hp : Good p) : (synParenDict p).Good := by
  refine Dict.mk'_good_parse fun m => ?_
  cases m with
  | named sp => exact withContent_good _ (hp.bind fun _ => parseNothing_good.bind fun _ => .pure _)
  | unnamed => exact hp

theorem tokenTreeDict_good : tokenTreeDict.Good := by
  refine Dict.mk'_good_parse fun m s => ?_
  split
  · rename_i heq; exact ⟨by simp, .toks_of s (by rw [heq]; exact List.suffix_cons _ _)⟩
  · exact ⟨by simp, .refl s⟩

theorem literalDict_good : literalDict.Good := by
  refine Dict.mk'_good_parse fun m s => ?_
  split
  · rename_i heq; exact ⟨by simp, .toks_of s (by rw [heq]; exact List.suffix_cons _ _)⟩
  · exact ⟨by simp, .refl s⟩

theorem punctDict_good : punctDict.Good := by
  refine Dict.mk'_good_parse fun m s => ?_
  split
  · rename_i heq
    split
    · exact ⟨by simp, .refl s⟩
    · exact ⟨by simp, .toks_of s (by rw [heq]; exact List.suffix_cons _ _)⟩
  · exact ⟨by simp, .refl s⟩

theorem groupDict_good : groupDict.Good := by
  refine Dict.mk'_good_parse fun m s => ?_
  split
  · rename_i heq; exact ⟨by simp, .toks_of s (by rw [heq]; exact List.suffix_cons _ _)⟩
  · exact ⟨by simp, .refl s⟩

theorem unitDict_good : unitDict.Good :=
  Dict.mk'_good (fun _ => withContent_good _ parseNothing_good)
    (fun _ l => ⟨by simp, AdvL.refl l⟩) (by simp) dfltMissing_ne

/-! ## TokenStream -/

theorem takeToks_spec (ts : List Tok) :
    ts = (takeToks ts).1 ++ (takeToks ts).2 ∧ NoComma (takeToks ts).1 ∧
      ((takeToks ts).2 = [] ∨ ∃ c rest, (takeToks ts).2 = c :: rest ∧ Comma c) := by
  induction ts with
  | nil => simp [takeToks, NoComma]
  | cons t ts ih =>
    simp only [takeToks]
    split
    · rename_i h
      refine ⟨by simp, by simp [NoComma], Or.inr ⟨t, ts, rfl, (isComma_iff t).1 h⟩⟩
    · rename_i h
      refine ⟨by simp [← ih.1], ?_, ih.2.2⟩
      intro x hx
      rcases List.mem_cons.1 hx with rfl | hx
      · rw [← isComma_eq_false_iff]; simpa using h
      · exact ih.2.1 x hx

theorem tokenStreamParse_good (m : Mode) : Good (tokenStreamParse m) := by
  intro s
  unfold tokenStreamParse
  split
  · exact ⟨by simp, .refl s⟩
  · simp only
    split
    · exact ⟨by simp, .refl s⟩
    · exact ⟨by simp, .toks_of s ⟨_, (takeToks_spec s.toks).1.symm⟩⟩

theorem tokenStreamParse_lt {m : Mode} {s s' : Stream} {ts : List Tok}
    (h : tokenStreamParse m s = (.ok ts, s')) : s'.toks.length < s.toks.length := by
  unfold tokenStreamParse at h
  split at h
  · simp at h
  · simp only at h
    split at h
    · simp at h
    · rename_i hne
      simp only [Prod.mk.injEq, Res.ok.injEq] at h
      obtain ⟨rfl, rfl⟩ := h
      have := congrArg List.length (takeToks_spec s.toks).1
      rw [List.length_append] at this
      have : 0 < (takeToks s.toks).1.length := List.length_pos_iff.2 (by simpa using hne)
      simp only; omega

theorem tokenStreamDict_good : tokenStreamDict.Good :=
  Dict.mk'_good tokenStreamParse_good (parseFirst_good tokenStreamParse_good) (by simp) (by simp)

theorem tokenStreamLoop_good : ∀ (n : Nat) (st : List Tok × Stream), st.2.toks.length < n →
    (tokenStreamLoop n st).1 ≠ .panic ∧ Adv (tokenStreamLoop n st).2.2 st.2 := by
  intro n
  induction n with
  | zero => intro st h; omega
  | succ n ih =>
    rintro ⟨tts, s⟩ h
    simp only [tokenStreamLoop]
    split
    · exact ⟨by simp, .refl s⟩
    · have hg := tokenStreamParse_good .unnamed s
      split
      · rename_i ts s' hp
        rw [hp] at hg
        have := tokenStreamParse_lt hp
        obtain ⟨i1, i2⟩ := ih (tts ++ ts, s') (by simp only at h ⊢; omega)
        exact ⟨i1, i2.trans hg.2⟩
      · rename_i hp; rw [hp] at hg; exact ⟨by simp, hg.2⟩
      · rename_i hp; rw [hp] at hg; exact absurd rfl hg.1

theorem tokenStreamFlat_good : tokenStreamFlat.Good := by
  intro m i inputs
  have := forStreams_good tokenStreamLoop_good ([], inputs)
  simp only [tokenStreamFlat]
  split
  · rename_i h; rw [h] at this; exact ⟨by simp, this.2⟩
  · rename_i h; rw [h] at this; exact ⟨by simp, this.2⟩
  · rename_i h; rw [h] at this; exact absurd rfl this.1

/-! ## Option and wrappers -/

theorem Good.comp_adv {α} {m : M Stream α} (hm : Good m) {f : Stream → Stream}
    (hf : ∀ s, Adv (f s) s) : Good (fun s => m (f s)) :=
  fun s => ⟨(hm (f s)).1, Adv.trans (hm (f s)).2 (hf s)⟩

theorem optionDict_good {α} {d : Dict α} (h : d.Good) : (optionDict d).Good := by
  have hp : ∀ m, Good ((optionDict d).parse m) := by
    intro m
    cases m with
    | named sp => exact (h.parse _).map some
    | unnamed =>
      intro s
      show (if _ then _ else _ : Res (Option α) × Stream).1 ≠ _ ∧
        Adv (if _ then _ else _ : Res (Option α) × Stream).2 s
      split
      · exact ((parseDelimitedWith_good .paren (single_good (h.inline .unnamed))).map
          some).comp_adv Adv.tail s
      · split
        · exact ⟨by simp, Adv.tail s⟩
        · exact ⟨by simp, .refl s⟩
  refine Dict.mk'_good hp (parseFirst_good hp) (fun sp => ?_) (by simp)
  have := h.flag sp
  cases hr : d.flag sp <;> simp_all [Res.map]

theorem wrapperDict_good {α} {d : Dict α} (h : d.Good) : (wrapperDict d).Good :=
  Dict.mk'_good h.parse (parseFirst_good h.parse) h.flag dfltMissing_ne

theorem Res.map_ne_panic {α β : Type} (f : α → β) {r : Res α} (h : r ≠ .panic) :
    r.map f ≠ .panic := by
  cases r <;> simp_all [Res.map]

theorem spannedDict_good [Env] {α} {d : Dict α} (h : d.Good) : (spannedDict d).Good :=
  ⟨fun m s => ⟨Res.map_ne_panic _ (h.parse m s).1, (h.parse m s).2⟩,
   fun m s => ⟨Res.map_ne_panic _ (h.inline m s).1, (h.inline m s).2⟩,
   fun sp => Res.map_ne_panic _ (h.flag sp),
   fun n sp s => ⟨Res.map_ne_panic _ (h.named n sp s).1, (h.named n sp s).2⟩,
   dfltMissing_ne⟩

theorem spannedFlat_good [Env] {α} {m : M (List Stream) α} (h : Good m) : Good (spannedFlat m) :=
  fun l => ⟨Res.map_ne_panic _ (h l).1, (h l).2⟩

theorem flagDict_good [Env] : flagDict.Good := by
  refine ⟨fun _ s => ⟨by simp [flagDict], Adv.refl s⟩, fun _ l => ⟨by simp [flagDict], AdvL.refl l⟩,
    by simp [flagDict], fun n sp s => ?_, by simp [flagDict]⟩
  simp only [flagDict]
  split
  · exact ⟨by simp, .refl s⟩
  · exact ⟨by simp, .refl s⟩

/-! ## Arrays and tuples -/

theorem arrayStep_adv {α} (n : Nat) {item : M Stream α} (hi : Good item)
    (acc : Acc (List α × Nat)) (s : Stream) (c : Nat) (hc : c < n)
    (hacc : acc.val.1.length + acc.val.2 = c ∧ (acc.val.2 > 0 → acc.errs.inner ≠ none)) :
    ∃ acc' s', arrayStep n item (acc, s) = (.ok (), (acc', s')) ∧ Adv s' s ∧
      acc'.val.1.length + acc'.val.2 = c + 1 ∧ (acc'.val.2 > 0 → acc'.errs.inner ≠ none) := by
  obtain ⟨g1, g2⟩ := hi s
  unfold arrayStep
  simp only
  cases h : item s with
  | mk r s' =>
    rw [h] at g1 g2
    cases r with
    | ok v =>
      simp only
      rw [if_pos (by omega)]
      exact ⟨_, _, rfl, g2, by simp; omega, hacc.2⟩
    | err e =>
      refine ⟨_, _, rfl, (skipMetaItem_adv s').trans g2, by simp; omega, fun _ => ?_⟩
      rw [Ne, Errors.inner_eq_none_iff]
      simp [SynErr.toList]
    | panic => exact absurd rfl g1

theorem arrayFlat_spec [Env] {α} (n : Nat) {d : Dict α} (h : ∀ m, Good (d.parse m)) (m : Mode)
    (i : Nat) (l : List Stream) :
    ((arrayFlat n d).parse m i l).1 ≠ .panic ∧ AdvL ((arrayFlat n d).parse m i l).2 l ∧
      ∀ vs, ((arrayFlat n d).parse m i l).1 = .ok vs → vs.length = n := by
  let I : Nat → Acc (List α × Nat) → Prop := fun c acc =>
    acc.val.1.length + acc.val.2 = c ∧ (acc.val.2 > 0 → acc.errs.inner ≠ none)
  have hinv := parseTupleStruct_inv (I := I) (len := n)
    (func := fun _ => stepHead (arrayStep n (d.parse .unnamed)))
    (fun c acc s rest hc hi _ => by
      obtain ⟨acc', s', h1, h2, h3⟩ := arrayStep_adv n (h .unnamed) acc s c hc hi
      simp only [stepHead, h1]
      exact ⟨by simp, .cons h2 (.refl rest), fun _ _ => ⟨hc, h3⟩, fun e he => (by cases he)⟩)
    ⟨([], 0), Errors.new⟩ l ⟨rfl, by simp⟩
  simp only [arrayFlat]
  cases hp : parseTupleStruct (fun _ => stepHead (arrayStep n (d.parse .unnamed))) n
    (⟨([], 0), Errors.new⟩, l) with
  | mk r st =>
    obtain ⟨acc, l'⟩ := st
    rw [hp] at hinv
    simp only
    have key : ∀ errs : Errors, (errs.toList = [] → acc.val.2 > 0 → False) →
        ∀ out : Res (List α) × List Stream,
        out = (match (if acc.val.1.length + acc.val.2 ≠ n then
              errs.push (inputsSpan l') (.arrayLen i n (acc.val.1.length + acc.val.2))
              else errs).check with
          | .ok () => ((if acc.val.1.length = n then .ok acc.val.1 else .panic : Res (List α)), l')
          | .err e => (.err e, l')
          | .panic => (.panic, l')) →
        out.1 ≠ .panic ∧ AdvL out.2 l ∧ ∀ vs, out.1 = .ok vs → vs.length = n := by
      intro errs herr out hout
      subst hout
      by_cases hn : acc.val.1.length + acc.val.2 = n
      · rw [if_neg (by simpa using hn)]
        simp only [Errors.check, Errors.intoResult]
        cases hin : errs.inner with
        | some x => exact ⟨by simp, hinv.adv, by simp⟩
        | none =>
          have h0 : ¬ acc.val.2 > 0 := herr ((Errors.inner_eq_none_iff errs).1 hin)
          simp only
          rw [if_pos (by omega)]
          exact ⟨by simp, hinv.adv, fun vs hvs => by cases hvs; omega⟩
      · rw [if_pos hn]
        have : ∃ x, (errs.push (inputsSpan l')
            (.arrayLen i n (acc.val.1.length + acc.val.2))).inner = some x := by
          cases hx : (errs.push (inputsSpan l')
            (.arrayLen i n (acc.val.1.length + acc.val.2))).inner with
          | some x => exact ⟨x, rfl⟩
          | none => rw [Errors.inner_eq_none_iff] at hx; simp at hx
        obtain ⟨x, hx⟩ := this
        simp only [Errors.check, Errors.intoResult, hx]
        exact ⟨by simp, hinv.adv, by simp⟩
    cases r with
    | panic => exact absurd rfl hinv.noPanic
    | ok c =>
      refine key acc.errs (fun he h0 => ?_) _ rfl
      exact (hinv.ok c rfl).2.2 h0 ((Errors.inner_eq_none_iff _).2 he)
    | err e =>
      refine key (acc.errs.pushSyn e) (fun he h0 => ?_) _ rfl
      simp [SynErr.toList] at he

theorem arrayFlat_good [Env] {α} (n : Nat) {d : Dict α} (h : ∀ m, Good (d.parse m)) :
    (arrayFlat n d).Good :=
  fun m i l => ⟨(arrayFlat_spec n h m i l).1, (arrayFlat_spec n h m i l).2.1⟩

theorem arrayDict_good [Env] {α} (n : Nat) {d : Dict α} (h : ∀ m, Good (d.parse m)) :
    (arrayDict n d).Good :=
  Dict.mk'_good (fun _ => parseDelimitedWith_good _ (single_good (arrayFlat_good n h _ _)))
    (fun m => arrayFlat_good n h m 0) dfltFlag_ne dfltMissing_ne

/-- Invariant of the tuple loop: the first `c` statuses are set, the others are not; a recorded parse
error has left a message. -/
def TupleAcc {α : Type} (n c : Nat) (acc : Acc (List (FieldStatus α))) : Prop :=
  acc.val.length = n ∧ (∀ i, i < c → ∀ st, acc.val[i]? = some st → st.isNone = false) ∧
    (∀ i, c ≤ i → ∀ st, acc.val[i]? = some st → st = .none) ∧
    ((∃ i : Nat, acc.val[i]? = some FieldStatus.parseError) → acc.errs.inner ≠ none)

theorem Errors.pushSyn_inner_ne (e : Errors) (x : SynErr) : (e.pushSyn x).inner ≠ none := by
  rw [Ne, Errors.inner_eq_none_iff]; simp [SynErr.toList]

theorem Errors.push_inner_ne (e : Errors) (sp : Span) (t : Text) : (e.push sp t).inner ≠ none :=
  e.pushSyn_inner_ne _

theorem tupleStep_adv {α} {items : List (M Stream α)} (hi : ∀ p ∈ items, Good p)
    (acc : Acc (List (FieldStatus α))) (s : Stream) (c : Nat) (hc : c < items.length)
    (hacc : TupleAcc items.length c acc) :
    ∃ acc' s', tupleStep items c (acc, s) = (.ok (), (acc', s')) ∧ Adv s' s ∧
      TupleAcc items.length (c + 1) acc' := by
  obtain ⟨hl, hset, hun, herr⟩ := hacc
  unfold tupleStep
  have h1 : items[c]? = some items[c] := List.getElem?_eq_getElem hc
  have h2 : acc.val[c]? = some acc.val[c] := List.getElem?_eq_getElem (by omega)
  simp only [h1, h2]
  obtain ⟨g1, g2⟩ := hi items[c] (List.getElem_mem hc) s
  have fin : ∀ (st' : FieldStatus α) (errs' : Errors) (s' : Stream), st'.isNone = false →
      (st' = .parseError → errs'.inner ≠ none) → (acc.errs.inner ≠ none → errs'.inner ≠ none) →
      TupleAcc items.length (c + 1) ⟨acc.val.set c st', errs'⟩ := by
    intro st' errs' s' hst hpe hmono
    refine ⟨by simp [hl], ?_, ?_, ?_⟩
    · intro i hi st hget
      by_cases hic : i = c
      · subst hic
        simp only [List.getElem?_set_self (by omega : i < acc.val.length), Option.some.injEq] at hget
        rw [← hget]; exact hst
      · rw [List.getElem?_set_ne (by omega)] at hget
        exact hset i (by omega) st hget
    · intro i hi st hget
      rw [List.getElem?_set_ne (by omega)] at hget
      exact hun i (by omega) st hget
    · rintro ⟨i, hget⟩
      by_cases hic : i = c
      · subst hic
        simp only [List.getElem?_set_self (by omega : i < acc.val.length), Option.some.injEq] at hget
        exact hpe hget
      · rw [List.getElem?_set_ne (by omega)] at hget
        exact hmono (herr ⟨i, hget⟩)
  unfold FieldStatus.parseUnnamedItemWith
  cases h : items[c] s with
  | mk r s' =>
    rw [h] at g1 g2
    cases r with
    | ok v => exact ⟨_, _, rfl, g2, fin _ _ s' rfl (by simp) (fun h => h)⟩
    | err e =>
      exact ⟨_, _, rfl, (skipMetaItem_adv s').trans g2,
        fin _ _ s' rfl (fun _ => Errors.pushSyn_inner_ne _ _) (fun _ => Errors.pushSyn_inner_ne _ _)⟩
    | panic => exact absurd rfl g1

theorem firstMissing_none {α} (l : List (FieldStatus α)) (k : Nat) :
    firstMissing l k = none ↔ ∀ st ∈ l, st.isNone = false := by
  induction l generalizing k with
  | nil => simp [firstMissing]
  | cons st l ih =>
    simp only [firstMissing]
    split
    · rename_i h; simp [h]
    · rename_i h; simp [ih, h]

theorem unwrapAll_ok {α} {l : List (FieldStatus α)} (h : ∀ st ∈ l, st.isNone = false)
    (hp : ¬ .parseError ∈ l) : ∃ vs, unwrapAll l = .ok vs ∧ l = vs.map .some := by
  induction l with
  | nil => exact ⟨[], rfl, rfl⟩
  | cons st l ih =>
    obtain ⟨vs, h1, h2⟩ := ih (fun x hx => h x (by simp [hx])) (fun hx => hp (by simp [hx]))
    cases st with
    | none => have := h .none (by simp); simp [FieldStatus.isNone] at this
    | parseError => exact absurd (by simp) hp
    | some a => exact ⟨a :: vs, by simp [unwrapAll, FieldStatus.unwrap, h1, Res.map], by simp [h2]⟩

theorem tupleFlat_spec [Env] {α} {ds : List (Dict α)} (h : ∀ d ∈ ds, ∀ m, Good (d.parse m)) (m : Mode)
    (i : Nat) (l : List Stream) :
    ((tupleFlat ds).parse m i l).1 ≠ .panic ∧ AdvL ((tupleFlat ds).parse m i l).2 l ∧
      ∀ vs, ((tupleFlat ds).parse m i l).1 = .ok vs → vs.length = ds.length := by
  have hitems : ∀ p ∈ ds.map (·.parse .unnamed), Good p := by
    intro p hp
    obtain ⟨d, hd, rfl⟩ := List.mem_map.1 hp
    exact h d hd _
  have hlen : (ds.map (·.parse .unnamed)).length = ds.length := by simp
  have hinv := parseTupleStruct_inv (I := TupleAcc ds.length) (len := ds.length)
    (func := fun i => stepHead (tupleStep (ds.map (·.parse .unnamed)) i))
    (fun c acc s rest hc hi _ => by
      obtain ⟨acc', s', h1, h2, h3⟩ := tupleStep_adv hitems acc s c (by omega) (by rwa [hlen])
      simp only [stepHead, h1]
      rw [hlen] at h3
      exact ⟨by simp, .cons h2 (.refl rest), fun _ _ => ⟨hc, h3⟩, fun e he => (by cases he)⟩)
    ⟨List.replicate ds.length .none, Errors.new⟩ l
    ⟨by simp, by simp, fun i _ st hst => by
      simp only [List.getElem?_replicate] at hst
      split at hst <;> simp_all,
     by
      rintro ⟨i, hi⟩
      simp only [List.getElem?_replicate] at hi
      split at hi <;> simp_all⟩
  simp only [tupleFlat]
  cases hp : parseTupleStruct (fun i => stepHead (tupleStep (ds.map (·.parse .unnamed)) i)) ds.length
    (⟨List.replicate ds.length .none, Errors.new⟩, l) with
  | mk r st =>
    obtain ⟨acc, l'⟩ := st
    rw [hp] at hinv
    simp only
    have key : ∀ errs : Errors, (∃ c, TupleAcc ds.length c acc) →
        (acc.errs.inner ≠ none → errs.inner ≠ none) →
        ∀ out : Res (List α) × List Stream,
        out = (match firstMissing acc.val 0 with
          | some i => ((errs.push (inputsSpan l') (.tupleLen ds.length i)).bail, l')
          | none =>
            match errs.check with
            | .ok () => (unwrapAll acc.val, l')
            | .err e => (.err e, l')
            | .panic => (.panic, l')) →
        out.1 ≠ .panic ∧ AdvL out.2 l ∧ ∀ vs, out.1 = .ok vs → vs.length = ds.length := by
      rintro errs ⟨c, hacc⟩ hmono out hout
      subst hout
      cases hm : firstMissing acc.val 0 with
      | some i =>
        simp only [Errors.bail, Errors.unwrapErr]
        cases hx : (errs.push (inputsSpan l') (.tupleLen ds.length i)).inner with
        | some x => exact ⟨by simp, hinv.adv, by simp⟩
        | none => exact absurd hx (Errors.push_inner_ne _ _ _)
      | none =>
        simp only [Errors.check, Errors.intoResult]
        cases hin : errs.inner with
        | some x => exact ⟨by simp, hinv.adv, by simp⟩
        | none =>
          have hno : ¬ FieldStatus.parseError ∈ acc.val := by
            intro hmem
            obtain ⟨i, hi⟩ := List.mem_iff_getElem?.1 hmem
            exact hmono (hacc.2.2.2 ⟨i, hi⟩) hin
          obtain ⟨vs, h1, h2⟩ := unwrapAll_ok ((firstMissing_none _ _).1 hm) hno
          simp only [h1]
          refine ⟨by simp, hinv.adv, fun vs' hvs => ?_⟩
          cases hvs
          have := hacc.1
          rw [h2] at this
          simpa using this
    cases r with
    | panic => exact absurd rfl hinv.noPanic
    | ok c => exact key acc.errs ⟨c, (hinv.ok c rfl).2⟩ (fun h => h) _ rfl
    | err e =>
      obtain ⟨c, _, hc⟩ := hinv.err e rfl
      exact key (acc.errs.pushSyn e) ⟨c, hc⟩ (fun _ => Errors.pushSyn_inner_ne _ _) _ rfl

theorem tupleFlat_good [Env] {α} {ds : List (Dict α)} (h : ∀ d ∈ ds, ∀ m, Good (d.parse m)) :
    (tupleFlat ds).Good :=
  fun m i l => ⟨(tupleFlat_spec h m i l).1, (tupleFlat_spec h m i l).2.1⟩

theorem tupleDict_good [Env] {α} {ds : List (Dict α)} (h : ∀ d ∈ ds, ∀ m, Good (d.parse m)) :
    (tupleDict ds).Good :=
  Dict.mk'_good (fun _ => parseDelimitedWith_good _ (single_good (tupleFlat_good h _ _)))
    (fun m => tupleFlat_good h m 0) dfltFlag_ne dfltMissing_ne

/-! ## Collections -/

theorem stepPush_good {α γ : Type} {item : M Stream α} (hi : Good item)
    (push : Acc γ → α → Stream → Stream → Acc γ) : Good (stepPush item push) := by
  rintro ⟨acc, s⟩
  obtain ⟨g1, g2⟩ := hi s
  simp only [stepPush]
  split
  · rename_i h; rw [h] at g2; exact ⟨by simp, g2⟩
  · rename_i h; rw [h] at g2; exact ⟨by simp, (skipMetaItem_adv _).trans g2⟩
  · rename_i h; rw [h] at g1; exact absurd rfl g1

theorem stepSkip_good {κ : Type} : Good (stepSkip : M (κ × Stream) Unit) :=
  fun st => ⟨by simp [stepSkip], skipMetaItem_adv st.2⟩

theorem Errors.intoResult_ne_panic {α : Type} (e : Errors) (a : α) : e.intoResult a ≠ .panic := by
  unfold Errors.intoResult; split <;> simp

theorem runAcc_good {γ : Type} (init : γ) {m : M (Acc γ × List Stream) Unit} (hm : Good m) :
    Good (runAcc init m) := by
  intro l
  have := hm (⟨init, Errors.new⟩, l)
  simp only [runAcc]
  split
  · rename_i h; rw [h] at this; exact ⟨Errors.intoResult_ne_panic _ _, this.2⟩
  · rename_i h; rw [h] at this; exact ⟨by simp, this.2⟩
  · rename_i h; rw [h] at this; exact absurd rfl this.1

theorem runAccPush_good {γ : Type} (init : γ) {m : M (Acc γ × List Stream) Unit} (hm : Good m) :
    Good (runAccPush init m) := by
  intro l
  have := hm (⟨init, Errors.new⟩, l)
  simp only [runAccPush]
  split
  · rename_i h; rw [h] at this; exact ⟨Errors.intoResult_ne_panic _ _, this.2⟩
  · rename_i h; rw [h] at this; exact ⟨Errors.intoResult_ne_panic _ _, this.2⟩
  · rename_i h; rw [h] at this; exact absurd rfl this.1

theorem items_good {κ : Type} {step : M (κ × Stream) Unit} (hs : Good step) :
    Good (forStreams (itemLoop step)) := forStreams_good (itemLoop_good hs)

theorem seqFlat_good {α} {d : Dict α} (h : ∀ m, Good (d.parse m)) : (seqFlat d).Good :=
  fun _ _ => runAcc_good [] (items_good (stepPush_good (h _) _))

theorem seqDict_good {α} {d : Dict α} (h : ∀ m, Good (d.parse m)) : (seqDict d).Good :=
  Dict.mk'_good (fun _ => parseDelimitedWith_good _ (single_good (seqFlat_good h _ _)))
    (fun m => seqFlat_good h m 0) dfltFlag_ne dfltMissing_ne

theorem appendStep_good {α γ : Type} {d : Dict α} (h : ∀ n sp, Good (d.named n sp))
    (paths : List Str) (push : Acc γ → α → Stream → Stream → Acc γ) (p : Str) (sp : Span) :
    Good (if paths.any (· == p) then stepPush (d.named p sp) push else stepSkip) := by
  split
  · exact stepPush_good (h p sp) push
  · exact stepSkip_good

theorem seqAppend_good [Env] {α} {d : Dict α} (h : ∀ n sp, Good (d.named n sp)) (paths : List Str) :
    Good (seqAppend d paths) :=
  runAccPush_good [] (parseStruct_good fun p sp => appendStep_good h paths _ p sp)

theorem setFlat_good [Env] {α} [DecidableEq α] {d : Dict α} (h : ∀ m, Good (d.parse m)) :
    (setFlat d).Good :=
  fun _ _ => runAcc_good [] (items_good (stepPush_good (h _) _))

theorem setDict_good [Env] {α} [DecidableEq α] {d : Dict α} (h : ∀ m, Good (d.parse m)) :
    (setDict d).Good :=
  Dict.mk'_good (fun _ => parseDelimitedWith_good _ (single_good (setFlat_good h _ _)))
    (fun m => setFlat_good h m 0) dfltFlag_ne dfltMissing_ne

theorem setAppend_good [Env] {α} [DecidableEq α] {d : Dict α} (h : ∀ n sp, Good (d.named n sp))
    (paths : List Str) : Good (setAppend d paths) :=
  runAcc_good [] (parseStruct_good fun p sp => appendStep_good h paths _ p sp)

theorem mapStep_good [Env] {κ ν} [DecidableEq κ] {kd : Dict κ} {vd : Dict ν} (keyStr : κ → Str)
    (hk : ∀ m, Good (kd.parse m)) (hv : ∀ n sp, Good (vd.named n sp)) :
    Good (mapStep kd keyStr vd) := by
  rintro ⟨acc, s⟩
  obtain ⟨g1, g2⟩ := hk .unnamed s
  simp only [mapStep]
  split
  · rename_i key s1 h
    rw [h] at g2
    have := stepPush_good (hv (keyStr key) s.span) (fun acc v _ _ =>
      { val := mapInsert acc.val key v
        errs := if key ∈ acc.val.map (·.1) then
          acc.errs.push ((Env.join s1.span s.span).getD s.span) .duplicateKey else acc.errs }) (acc, s1)
    exact ⟨this.1, Adv.trans this.2 g2⟩
  · rename_i h; rw [h] at g2; exact ⟨by simp, g2⟩
  · rename_i h; rw [h] at g1; exact absurd rfl g1

theorem mapFlat_good [Env] {κ ν} [DecidableEq κ] {kd : Dict κ} {vd : Dict ν} (keyStr : κ → Str)
    (hk : ∀ m, Good (kd.parse m)) (hv : ∀ n sp, Good (vd.named n sp)) :
    (mapFlat kd keyStr vd).Good :=
  fun _ _ => runAcc_good [] (items_good (mapStep_good keyStr hk hv))

theorem mapDict_good [Env] {κ ν} [DecidableEq κ] {kd : Dict κ} {vd : Dict ν} (keyStr : κ → Str)
    (hk : ∀ m, Good (kd.parse m)) (hv : ∀ n sp, Good (vd.named n sp)) :
    (mapDict kd keyStr vd).Good :=
  Dict.mk'_good (fun _ => parseDelimitedWith_good _ (single_good (mapFlat_good keyStr hk hv _ _)))
    (fun m => mapFlat_good keyStr hk hv m 0) dfltFlag_ne dfltMissing_ne

theorem restStep_good [Env] {κ ν} [DecidableEq κ] {kd : Dict κ} {vd : Dict ν} (keyStr : κ → Str)
    (hk : ∀ m, Good (kd.parse m)) (hv : ∀ n sp, Good (vd.named n sp)) (ex : List Str) :
    Good (restStep kd keyStr vd ex) := by
  rintro ⟨acc, s⟩
  obtain ⟨g1, g2⟩ := hk .unnamed s
  simp only [restStep]
  split
  · rename_i key s1 h
    rw [h] at g2
    split
    · exact ⟨by simp, (skipMetaItem_adv s1).trans g2⟩
    · obtain ⟨g3, g4⟩ := hv (keyStr key) s.span s1
      split
      · rename_i h; rw [h] at g4; exact ⟨by simp, Adv.trans g4 g2⟩
      · rename_i h; rw [h] at g4; exact ⟨by simp, Adv.trans g4 g2⟩
      · rename_i h; rw [h] at g3; exact absurd rfl g3
  · rename_i h; rw [h] at g2; exact ⟨by simp, g2⟩
  · rename_i h; rw [h] at g1; exact absurd rfl g1

theorem mapRest_good [Env] {κ ν} [DecidableEq κ] {kd : Dict κ} {vd : Dict ν} (keyStr : κ → Str)
    (hk : ∀ m, Good (kd.parse m)) (hv : ∀ n sp, Good (vd.named n sp)) (ex : List Str) :
    Good (mapRest kd keyStr vd ex) :=
  runAcc_good [] (items_good (restStep_good keyStr hk hv ex))

end Deluxe
