import Verif.Spec.Defs
import Verif.Lemmas.Defs
import Verif.Lemmas.Keys
/-!
# Reading definitions, item by item
-/
namespace Deluxe
variable [Env]

omit [Env] in
theorem unraw_eq (s : Str) : unraw s = bareName s := by
  unfold unraw
  have e : "r#".toList = ['r', '#'] := rfl
  rw [e]
  match s with
  | [] => rfl
  | [c] =>
    by_cases h : 'r' = c
    · subst h; rfl
    · simp [stripPrefix, bareName, h]
  | c :: d :: s =>
    by_cases h : 'r' = c
    · subst h
      by_cases h : '#' = d
      · subst h; rfl
      · simp only [stripPrefix, ↓reduceIte, h, Option.getD_none]
        unfold bareName
        split
        · rename_i h'; cases h'; exact absurd rfl h
        · rfl
    · simp only [stripPrefix, h, ↓reduceIte, Option.getD_none]
      unfold bareName
      split
      · rename_i h'; cases h'; exact absurd rfl h
      · rfl

/-! ## Loops whose items all parse -/

theorem keyStep_key {κ : Type} (func : Str → Span → M (κ × Stream) Unit) {segs sp v vt}
    (h : KeyToks segs sp v vt) {rest : List Tok} (hr : Boundary rest) (k : κ) (sc : Span) (u : Option Span) :
    keyStep func (k, ⟨v ++ rest, sc, u⟩) = func (keyString segs) sp (k, ⟨vt ++ rest, sc, u⟩) := by
  cases h with
  | mk hp hc =>
    rw [keyStep_eq, List.append_assoc, parseAnyPath_key hp _ _ _ (boundary_noColon hc hr)]

section
variable {κ β : Type} {seg : List Tok → List Tok → Span → β → Prop} (apply : κ → β → κ) (valid : κ → β → Prop)

/-- Every item is fine in the state in which it is read. -/
def AllValid : κ → List β → Prop
  | _, [] => True
  | k, b :: bs => valid k b ∧ AllValid (apply k b) bs

variable {apply valid}

omit [Env] in
theorem allValid_append {k : κ} {as bs : List β} :
    AllValid apply valid k (as ++ bs) ↔
      AllValid apply valid k as ∧ AllValid apply valid (as.foldl apply k) bs := by
  induction as generalizing k with
  | nil => simp [AllValid]
  | cons a as ih => simp [AllValid, ih, and_assoc]

variable {step : M (Acc κ × Stream) Unit}

omit [Env] in
theorem itemLoop_fold
    (hok : ∀ k errs v rest sc u b, seg v rest sc b → Boundary rest → valid k b →
      step (⟨k, errs⟩, ⟨v ++ rest, sc, u⟩) = (.ok (), (⟨apply k b, errs⟩, ⟨rest, sc, u⟩)))
    {sc : Span} {ts : List Tok} {bs : List β} (hi : Items seg sc ts bs) :
    ∀ (k : κ) (errs : Errors) (u : Option Span) (n : Nat), ts.length < n → AllValid apply valid k bs →
      itemLoop step n (⟨k, errs⟩, ⟨ts, sc, u⟩) = (.ok (), (⟨bs.foldl apply k, errs⟩, ⟨[], sc, u⟩)) := by
  induction hi with
  | nil =>
    intro k errs u n hn _
    cases n with
    | zero => omega
    | succ n => rw [itemLoop_succ]; rfl
  | @last v b hv hs =>
    intro k errs u n hn hval
    have hst := hok k errs v [] sc u b hs (.inl rfl) hval.1
    rw [List.append_nil] at hst
    cases n with
    | zero => omega
    | succ n =>
      cases n with
      | zero =>
        simp only [Nat.zero_add, Nat.lt_one_iff, List.length_eq_zero_iff] at hn
        exact absurd hn hv
      | succ n =>
        rw [itemLoop_succ, if_neg (by simpa [isEmpty_iff] using hv), hst]
        dsimp only
        rw [if_pos ((isEmpty_iff _).2 rfl), itemLoop_succ, if_pos ((isEmpty_iff _).2 rfl)]
        rfl
  | @cons v c rest b bs hc hs _ ih =>
    intro k errs u n hn hval
    have hst := hok k errs v (c :: rest) sc u b hs (.inr ⟨c, rest, rfl, hc⟩) hval.1
    cases n with
    | zero => omega
    | succ n =>
      have hrec := ih (apply k b) errs u n (by simp at hn; omega) hval.2
      rw [itemLoop_succ, if_neg (by simp [isEmpty_iff]), hst]
      dsimp only
      rw [if_neg (by simp [isEmpty_iff]), parseComma_comma hc]
      exact hrec

omit [Env] in
theorem itemLoop_bad
    (hok : ∀ k errs v rest sc u b, seg v rest sc b → Boundary rest → valid k b →
      step (⟨k, errs⟩, ⟨v ++ rest, sc, u⟩) = (.ok (), (⟨apply k b, errs⟩, ⟨rest, sc, u⟩)))
    (hbad : ∀ k errs v rest sc u b, seg v rest sc b → Boundary rest → ¬ valid k b →
      (step (⟨k, errs⟩, ⟨v ++ rest, sc, u⟩)).2.1.errs.toList ≠ [])
    (hmono : ∀ st, st.1.errs.toList <+: (step st).2.1.errs.toList)
    {sc : Span} {ts : List Tok} {bs : List β} (hi : Items seg sc ts bs) :
    ∀ (k : κ) (errs : Errors) (u : Option Span) (n : Nat), ts.length < n → ¬ AllValid apply valid k bs →
      (itemLoop step n (⟨k, errs⟩, ⟨ts, sc, u⟩)).2.1.errs.toList ≠ [] := by
  have hkeep : ∀ n (st : Acc κ × Stream), st.1.errs.toList ≠ [] → (itemLoop step n st).2.1.errs.toList ≠ [] :=
    itemLoop_inv (P := fun acc : Acc κ => acc.errs.toList ≠ []) fun st h => ne_nil_of_prefix (hmono st) h
  -- after a bad step the errors stay
  have hstep : ∀ n (st : Acc κ × Stream), st.2.toks ≠ [] → (step st).2.1.errs.toList ≠ [] →
      (itemLoop step (n + 1) st).2.1.errs.toList ≠ [] := by
    intro n st hne h
    rw [itemLoop_succ, if_neg (by simpa [isEmpty_iff] using hne)]
    split
    · rename_i st1 hst
      rw [hst] at h
      split
      · exact hkeep _ _ h
      · split
        · exact hkeep _ _ h
        · exact h
        · exact h
    · rename_i hst; rw [hst] at h; exact h
    · rename_i hst; rw [hst] at h; exact h
  induction hi with
  | nil => intro k errs u n hn h; exact absurd trivial h
  | @last v b hv hs =>
    intro k errs u n hn hval
    have hb : ¬ valid k b := fun h => hval ⟨h, trivial⟩
    have := hbad k errs v [] sc u b hs (.inl rfl) hb
    rw [List.append_nil] at this
    cases n with
    | zero => omega
    | succ n => exact hstep n _ hv this
  | @cons v c rest b bs hc hs _ ih =>
    intro k errs u n hn hval
    cases n with
    | zero => omega
    | succ n =>
      by_cases hb : valid k b
      · have hst := hok k errs v (c :: rest) sc u b hs (.inr ⟨c, rest, rfl, hc⟩) hb
        have hrec := ih (apply k b) errs u n (by simp at hn; omega) (fun h => hval ⟨hb, h⟩)
        rw [itemLoop_succ, if_neg (by simp [isEmpty_iff]), hst]
        dsimp only
        rw [if_neg (by simp [isEmpty_iff]), parseComma_comma hc]
        exact hrec
      · exact hstep n _ (by simp) (hbad k errs v (c :: rest) sc u b hs (.inr ⟨c, rest, rfl, hc⟩) hb)

end

section
variable {κ β : Type} {seg : List Tok → List Tok → Span → β → Prop} {apply : κ → β → κ} {valid : κ → β → Prop}
  {func : Str → Span → M (Acc κ × Stream) Unit}

/-- All items are fine: each has its effect. -/
theorem parseStruct_fold
    (hok : ∀ k errs v rest sc u b, seg v rest sc b → Boundary rest → valid k b →
      keyStep func (⟨k, errs⟩, ⟨v ++ rest, sc, u⟩) = (.ok (), (⟨apply k b, errs⟩, ⟨rest, sc, u⟩)))
    {l : List Stream} {bs : List β} (hi : ItemsAll seg l bs) (k : κ) (errs : Errors)
    (hv : AllValid apply valid k bs) :
    parseStruct func (⟨k, errs⟩, l) = (.ok (), (⟨bs.foldl apply k, errs⟩, l.map Stream.clear)) := by
  rw [parseStruct_eq]
  show forStreams.go _ _ _ = _
  induction hi generalizing k with
  | nil => rfl
  | @cons s bs rest bs' h1 _ ih =>
    obtain ⟨hv1, hv2⟩ := allValid_append.1 hv
    have h := itemLoop_fold hok h1 k errs s.unexp (s.toks.length + 1) (Nat.lt_succ_self _) hv1
    rw [forStreams.go, h]
    dsimp only
    rw [ih _ hv2, List.foldl_append]
    rfl

/-- Some item is not fine: there are errors in the end. -/
theorem parseStruct_bad
    (hok : ∀ k errs v rest sc u b, seg v rest sc b → Boundary rest → valid k b →
      keyStep func (⟨k, errs⟩, ⟨v ++ rest, sc, u⟩) = (.ok (), (⟨apply k b, errs⟩, ⟨rest, sc, u⟩)))
    (hbad : ∀ k errs v rest sc u b, seg v rest sc b → Boundary rest → ¬ valid k b →
      (keyStep func (⟨k, errs⟩, ⟨v ++ rest, sc, u⟩)).2.1.errs.toList ≠ [])
    (hmono : ∀ path span st, st.1.errs.toList <+: (func path span st).2.1.errs.toList)
    {l : List Stream} {bs : List β} (hi : ItemsAll seg l bs) (k : κ) (errs : Errors)
    (hv : ¬ AllValid apply valid k bs) :
    (parseStruct func (⟨k, errs⟩, l)).2.1.errs.toList ≠ [] := by
  have hm : ∀ st : Acc κ × Stream, st.1.errs.toList <+: (keyStep func st).2.1.errs.toList := by
    rintro ⟨acc, s⟩
    rw [keyStep_eq]
    split
    · rename_i s1 _
      exact hmono _ _ (acc, s1)
    · exact List.prefix_refl _
    · exact List.prefix_refl _
  have hgo : ∀ (l : List Stream) (acc : Acc κ), acc.errs.toList ≠ [] →
      (forStreams.go (itemLoop (keyStep func)) acc l).2.1.errs.toList ≠ [] := by
    intro l acc h
    have := parseStruct_inv (P := fun acc : Acc κ => acc.errs.toList ≠ [])
      (fun p sp st h => ne_nil_of_prefix (hmono p sp st) h) acc l h
    rw [parseStruct_eq] at this
    exact this
  rw [parseStruct_eq]
  show (forStreams.go (itemLoop (keyStep func)) ⟨k, errs⟩ l).2.1.errs.toList ≠ []
  induction hi generalizing k with
  | nil => exact absurd trivial hv
  | @cons s bs rest bs' h1 _ ih =>
    rw [allValid_append] at hv
    rw [forStreams.go]
    by_cases hv1 : AllValid apply valid k bs
    · have h := itemLoop_fold hok h1 k errs s.unexp (s.toks.length + 1) (Nat.lt_succ_self _) hv1
      have := ih _ (fun h => hv ⟨hv1, h⟩)
      rw [h]
      exact this
    · have h := itemLoop_bad hok hbad hm h1 k errs s.unexp (s.toks.length + 1) (Nat.lt_succ_self _) hv1
      split
      · rename_i k' s' hb
        rw [hb] at h
        exact hgo _ _ h
      · rename_i hb
        rw [hb] at h
        exact h

end

/-! ## Fields -/

/-- The first value is kept. -/
def keepFirst {α : Type} (st : FieldStatus α) (x : α) : FieldStatus α := if st.isNone then .some x else st

/-- The effect of one attribute. -/
def fieldApply (k : FieldSt) : FieldAttr → FieldSt
  | .flatten x => { k with flatten := keepFirst k.flatten x }
  | .append x => { k with append := keepFirst k.append x }
  | .rest x => { k with rest := keepFirst k.rest x }
  | .default x => { k with default := keepFirst k.default x }
  | .with_ x => { k with with_ := keepFirst k.with_ x }
  | .rename sp n =>
    { k with names := { k.names with idents := n :: k.names.idents, rename := keepFirst k.names.rename sp } }
  | .alias sp n =>
    { k with names := { k.names with idents := k.names.idents ++ [n],
                                     aliasSpan := keepFirst k.names.aliasSpan sp } }
  | .container x => { k with container := keepFirst k.container x }
  | .skip x => { k with skip := keepFirst k.skip x }
  | .map x => { k with transforms := k.transforms ++ [.map x] }
  | .andThen x => { k with transforms := k.transforms ++ [.andThen x] }

/-- The attribute was not given before, or may be given again. -/
def slotFree (k : FieldSt) : FieldAttr → Bool
  | .flatten _ => k.flatten.isNone
  | .append _ => k.append.isNone
  | .rest _ => k.rest.isNone
  | .default _ => k.default.isNone
  | .with_ _ => k.with_.isNone
  | .rename .. => k.names.rename.isNone
  | .alias .. => true
  | .container _ => k.container.isNone
  | .skip _ => k.skip.isNone
  | .map _ => true
  | .andThen _ => true

/-- The attribute is fine in this state. -/
structure FieldValid (f : FieldIn) (k : FieldSt) (b : FieldAttr) : Prop where
  free : slotFree k b = true
  tuple : f.ident = none → b.key ∉ ["append", "rest", "rename", "alias"]
  name : ∀ n, b.name? = some n → n.1 ∉ k.names.idents.map (·.1) ∧ f.ident.map (·.1) ≠ some n.1

omit [Env] in
theorem slotItem_run {κ α : Type} {get : κ → FieldStatus α} {put : FieldStatus α → κ → κ} {func : M Stream α}
    {name : Str} {span : Span} {vt rest : List Tok} {sc : Span} {x : α}
    (h : ReadsFully func vt rest sc x) (k : κ) (errs : Errors) (u : Option Span) :
    slotItem get put func name span (⟨k, errs⟩, ⟨vt ++ rest, sc, u⟩) =
      (.ok (), (⟨put (keepFirst (get k) x) k, dupErrs (get k) name span errs⟩, ⟨rest, sc, u⟩)) := by
  rw [slotItem_eq, h u]; rfl

omit [Env] in
theorem dupErrs_free {α : Type} {st : FieldStatus α} (h : st.isNone = true) (name : Str) (span : Span)
    (errs : Errors) : dupErrs st name span errs = errs := by
  simp [dupErrs, h]

omit [Env] in
theorem dupErrs_taken {α : Type} {st : FieldStatus α} (h : ¬ st.isNone = true) (name : Str) (span : Span)
    (errs : Errors) : (dupErrs st name span errs).toList ≠ [] := by
  simp [dupErrs, h]

omit [Env] in
theorem named_of_not {f : FieldIn} {a : String} (h : f.ident = none → a ∉ ["append", "rest", "rename", "alias"])
    (ha : a ∈ ["append", "rest", "rename", "alias"]) : ¬ f.ident.isNone = true := by
  intro hn
  exact h (by simpa using hn) ha

theorem fieldStep_valid {lib : SynLib} {f : FieldIn} (k : FieldSt) (errs : Errors) (v rest : List Tok) (sc : Span)
    (u : Option Span) (b : FieldAttr) (hs : FieldSeg lib v rest sc b) (hb : Boundary rest)
    (hv : FieldValid f k b) :
    keyStep (fieldStep lib f) (⟨k, errs⟩, ⟨v ++ rest, sc, u⟩) =
      (.ok (), (⟨fieldApply k b, errs⟩, ⟨rest, sc, u⟩)) := by
  obtain ⟨h1, h2, h3⟩ := hv
  cases hs with
  | @flatten sp vt x hk hr =>
    have hu := slotItem_run (κ := FieldSt) (get := (·.flatten)) (put := fun st k => { k with flatten := st })
      (name := txt "flatten") (span := sp) hr k errs u
    refine (keyStep_key _ hk hb _ _ _).trans ?_
    rw [dupErrs_free h1] at hu
    exact hu
  | @append sp vt x hk hr =>
    have hu := slotItem_run (κ := FieldSt) (get := (·.append)) (put := fun st k => { k with append := st })
      (name := txt "append") (span := sp) hr k errs u
    refine (keyStep_key _ hk hb _ _ _).trans ?_
    rw [dupErrs_free h1] at hu
    show (if f.ident.isNone = true then _ else _ : M (Acc FieldSt × Stream) Unit) _ = _
    rw [if_neg (named_of_not h2 (by simp [FieldAttr.key]))]
    exact hu
  | @rest sp vt x hk hr =>
    have hu := slotItem_run (κ := FieldSt) (get := (·.rest)) (put := fun st k => { k with rest := st })
      (name := txt "rest") (span := sp) hr k errs u
    refine (keyStep_key _ hk hb _ _ _).trans ?_
    rw [dupErrs_free h1] at hu
    show (if f.ident.isNone = true then _ else _ : M (Acc FieldSt × Stream) Unit) _ = _
    rw [if_neg (named_of_not h2 (by simp [FieldAttr.key]))]
    exact hu
  | @default sp vt x hk hr =>
    have hu := slotItem_run (κ := FieldSt) (get := (·.default)) (put := fun st k => { k with default := st })
      (name := txt "default") (span := sp) hr k errs u
    refine (keyStep_key _ hk hb _ _ _).trans ?_
    rw [dupErrs_free h1] at hu
    exact hu
  | @with_ sp vt x hk hr =>
    have hu := slotItem_run (κ := FieldSt) (get := (·.with_)) (put := fun st k => { k with with_ := st })
      (name := txt "with") (span := sp) hr k errs u
    refine (keyStep_key _ hk hb _ _ _).trans ?_
    rw [dupErrs_free h1] at hu
    exact hu
  | @rename sp vt n hk hr =>
    have hu := hr u
    refine (keyStep_key _ hk hb _ _ _).trans ?_
    show (if f.ident.isNone = true then _ else _ : M (Acc FieldSt × Stream) Unit) _ = _
    rw [if_neg (named_of_not h2 (by simp [FieldAttr.key]))]
    have := renameItem_eq (txt "field") (f.ident.map (·.1)) sp k.names errs ⟨vt ++ rest, sc, u⟩
    rw [hu] at this
    dsimp only at this
    rw [if_neg (h3 n rfl).2, if_neg (by simpa using (h3 n rfl).1), dupErrs_free h1] at this
    simp only [onNames]
    rw [this]
    rfl
  | @alias sp vt n hk hr =>
    have hu := hr u
    refine (keyStep_key _ hk hb _ _ _).trans ?_
    show (if f.ident.isNone = true then _ else _ : M (Acc FieldSt × Stream) Unit) _ = _
    rw [if_neg (named_of_not h2 (by simp [FieldAttr.key]))]
    simp only [onNames, aliasItem, stepPush, hu]
    rw [if_neg (h3 n rfl).2, if_neg (by simpa using (h3 n rfl).1)]
    rfl
  | @container sp vt x hk hr =>
    have hu := slotItem_run (κ := FieldSt) (get := (·.container))
      (put := fun st k => { k with container := st }) (name := txt "container") (span := sp) hr k errs u
    refine (keyStep_key _ hk hb _ _ _).trans ?_
    rw [dupErrs_free h1] at hu
    exact hu
  | @skip sp vt x hk hr =>
    have hu := slotItem_run (κ := FieldSt) (get := (·.skip)) (put := fun st k => { k with skip := st })
      (name := txt "container") (span := sp) hr k errs u
    refine (keyStep_key _ hk hb _ _ _).trans ?_
    rw [dupErrs_free h1] at hu
    exact hu
  | @map sp vt x hk hr =>
    have hu := hr u
    refine (keyStep_key _ hk hb _ _ _).trans ?_
    show pushItem (κ := FieldSt) (tokenStreamDict.named (txt "map") sp)
      (fun k e => { k with transforms := k.transforms ++ [.map e] }) _ = _
    simp only [pushItem, stepPush, hu]
    rfl
  | @andThen sp vt x hk hr =>
    have hu := hr u
    refine (keyStep_key _ hk hb _ _ _).trans ?_
    show pushItem (κ := FieldSt) (tokenStreamDict.named (txt "and_then") sp)
      (fun k e => { k with transforms := k.transforms ++ [.andThen e] }) _ = _
    simp only [pushItem, stepPush, hu]
    rfl

theorem fieldStep_bad {lib : SynLib} {f : FieldIn} (k : FieldSt) (errs : Errors) (v rest : List Tok) (sc : Span)
    (u : Option Span) (b : FieldAttr) (hs : FieldSeg lib v rest sc b) (hb : Boundary rest)
    (hv : ¬ FieldValid f k b) :
    (keyStep (fieldStep lib f) (⟨k, errs⟩, ⟨v ++ rest, sc, u⟩)).2.1.errs.toList ≠ [] := by
  cases hs with
  | @flatten sp vt x hk hr =>
    have hu := slotItem_run (κ := FieldSt) (get := (·.flatten)) (put := fun st k => { k with flatten := st })
      (name := txt "flatten") (span := sp) hr k errs u
    have hf : ¬ k.flatten.isNone = true := fun h => hv ⟨h, fun _ => by simp [FieldAttr.key], by simp [FieldAttr.name?]⟩
    have := dupErrs_taken hf (txt "flatten") sp errs
    rw [keyStep_key _ hk hb]
    rw [show fieldStep lib f (keyString [txt "flatten"]) sp (⟨k, errs⟩, ⟨vt ++ rest, sc, u⟩) = _ from hu]
    exact this
  | @append sp vt x hk hr =>
    rw [keyStep_key _ hk hb]
    show Errors.toList ((if f.ident.isNone = true then
        refuse (notOnTupleText (txt "append") (txt "struct field")) sp
      else slotItem (·.append) (fun st k => { k with append := st })
        ((spannedDict boolDict).named (txt "append") sp) (txt "append") sp : M (Acc FieldSt × Stream) Unit)
      (⟨k, errs⟩, ⟨vt ++ rest, sc, u⟩)).2.1.errs ≠ []
    by_cases hn : f.ident.isNone = true
    · rw [if_pos hn]
      simp [refuse]
    · rw [if_neg hn]
      have hu := slotItem_run (κ := FieldSt) (get := (·.append)) (put := fun st k => { k with append := st })
        (name := txt "append") (span := sp) hr k errs u
      have hf : ¬ k.append.isNone = true := fun h =>
        hv ⟨h, fun hi => absurd (by simp [hi]) hn, by simp [FieldAttr.name?]⟩
      rw [hu]
      exact dupErrs_taken hf (txt "append") sp errs
  | @rest sp vt x hk hr =>
    rw [keyStep_key _ hk hb]
    show Errors.toList ((if f.ident.isNone = true then
        refuse (notOnTupleText (txt "rest") (txt "struct field")) sp
      else slotItem (·.rest) (fun st k => { k with rest := st })
        ((spannedDict boolDict).named (txt "rest") sp) (txt "rest") sp : M (Acc FieldSt × Stream) Unit)
      (⟨k, errs⟩, ⟨vt ++ rest, sc, u⟩)).2.1.errs ≠ []
    by_cases hn : f.ident.isNone = true
    · rw [if_pos hn]
      simp [refuse]
    · rw [if_neg hn]
      have hu := slotItem_run (κ := FieldSt) (get := (·.rest)) (put := fun st k => { k with rest := st })
        (name := txt "rest") (span := sp) hr k errs u
      have hf : ¬ k.rest.isNone = true := fun h =>
        hv ⟨h, fun hi => absurd (by simp [hi]) hn, by simp [FieldAttr.name?]⟩
      rw [hu]
      exact dupErrs_taken hf (txt "rest") sp errs
  | @default sp vt x hk hr =>
    have hu := slotItem_run (κ := FieldSt) (get := (·.default)) (put := fun st k => { k with default := st })
      (name := txt "default") (span := sp) hr k errs u
    have hf : ¬ k.default.isNone = true := fun h => hv ⟨h, fun _ => by simp [FieldAttr.key], by simp [FieldAttr.name?]⟩
    have := dupErrs_taken hf (txt "default") sp errs
    rw [keyStep_key _ hk hb]
    rw [show fieldStep lib f (keyString [txt "default"]) sp (⟨k, errs⟩, ⟨vt ++ rest, sc, u⟩) = _ from hu]
    exact this
  | @with_ sp vt x hk hr =>
    have hu := slotItem_run (κ := FieldSt) (get := (·.with_)) (put := fun st k => { k with with_ := st })
      (name := txt "with") (span := sp) hr k errs u
    have hf : ¬ k.with_.isNone = true := fun h => hv ⟨h, fun _ => by simp [FieldAttr.key], by simp [FieldAttr.name?]⟩
    have := dupErrs_taken hf (txt "with") sp errs
    rw [keyStep_key _ hk hb]
    rw [show fieldStep lib f (keyString [txt "with"]) sp (⟨k, errs⟩, ⟨vt ++ rest, sc, u⟩) = _ from hu]
    exact this
  | @rename sp vt n hk hr =>
    have hu := hr u
    rw [keyStep_key _ hk hb]
    show Errors.toList ((if f.ident.isNone = true then
        report (notOnTupleText (txt "rename") (txt "struct field")) sp
      else onNames (·.names) (fun n k => { k with names := n })
        (renameItem (txt "field") (f.ident.map (·.1)) sp) : M (Acc FieldSt × Stream) Unit)
      (⟨k, errs⟩, ⟨vt ++ rest, sc, u⟩)).2.1.errs ≠ []
    by_cases hn : f.ident.isNone = true
    · rw [if_pos hn]
      simp [report]
    · rw [if_neg hn]
      have := renameItem_eq (txt "field") (f.ident.map (·.1)) sp k.names errs ⟨vt ++ rest, sc, u⟩
      rw [hu] at this
      dsimp only at this
      simp only [onNames]
      rw [this]
      split
      · simp [renameFailed, SynErr.toList]
      · rename_i h1
        split
        · simp [renameFailed, SynErr.toList]
        · rename_i h2
          refine dupErrs_taken (fun h => hv ⟨h, fun hi => absurd (by simp [hi]) hn, fun m hm => ?_⟩) _ _ _
          simp only [FieldAttr.name?, Option.some.injEq] at hm
          subst hm
          exact ⟨by simpa using h2, h1⟩
  | @alias sp vt n hk hr =>
    have hu := hr u
    rw [keyStep_key _ hk hb]
    show Errors.toList ((if f.ident.isNone = true then
        report (notOnTupleText (txt "alias") (txt "struct field")) sp
      else onNames (·.names) (fun n k => { k with names := n })
        (aliasItem (txt "field") (f.ident.map (·.1)) sp) : M (Acc FieldSt × Stream) Unit)
      (⟨k, errs⟩, ⟨vt ++ rest, sc, u⟩)).2.1.errs ≠ []
    by_cases hn : f.ident.isNone = true
    · rw [if_pos hn]
      simp [report]
    · rw [if_neg hn]
      simp only [onNames, aliasItem, stepPush, hu]
      split
      · simp
      · rename_i h1
        split
        · simp
        · rename_i h2
          refine absurd ⟨rfl, fun hi => absurd (by simp [hi]) hn, fun m hm => ?_⟩ hv
          simp only [FieldAttr.name?, Option.some.injEq] at hm
          subst hm
          exact ⟨by simpa using h2, h1⟩
  | @container sp vt x hk hr =>
    have hu := slotItem_run (κ := FieldSt) (get := (·.container)) (put := fun st k => { k with container := st })
      (name := txt "container") (span := sp) hr k errs u
    have hf : ¬ k.container.isNone = true := fun h => hv ⟨h, fun _ => by simp [FieldAttr.key], by simp [FieldAttr.name?]⟩
    have := dupErrs_taken hf (txt "container") sp errs
    rw [keyStep_key _ hk hb]
    rw [show fieldStep lib f (keyString [txt "container"]) sp (⟨k, errs⟩, ⟨vt ++ rest, sc, u⟩) = _ from hu]
    exact this
  | @skip sp vt x hk hr =>
    have hu := slotItem_run (κ := FieldSt) (get := (·.skip)) (put := fun st k => { k with skip := st })
      (name := txt "container") (span := sp) hr k errs u
    have hf : ¬ k.skip.isNone = true := fun h => hv ⟨h, fun _ => by simp [FieldAttr.key], by simp [FieldAttr.name?]⟩
    have := dupErrs_taken hf (txt "container") sp errs
    rw [keyStep_key _ hk hb]
    rw [show fieldStep lib f (keyString [txt "skip"]) sp (⟨k, errs⟩, ⟨vt ++ rest, sc, u⟩) = _ from hu]
    exact this
  | map => exact absurd ⟨rfl, fun _ => by simp [FieldAttr.key], by simp [FieldAttr.name?]⟩ hv
  | andThen => exact absurd ⟨rfl, fun _ => by simp [FieldAttr.key], by simp [FieldAttr.name?]⟩ hv

theorem fieldStep_mono (lib : SynLib) (f : FieldIn) (path : Str) (span : Span) (st : Acc FieldSt × Stream) :
    st.1.errs.toList <+: (fieldStep lib f path span st).2.1.errs.toList := by
  have hr := renameItem_mono (txt "field") (f.ident.map (·.1)) span (⟨st.1.val.names, st.1.errs⟩, st.2)
  have hal := aliasItem_mono (txt "field") (f.ident.map (·.1)) span (⟨st.1.val.names, st.1.errs⟩, st.2)
  cases ha : fieldArm path <;> simp only [fieldStep, ha]
  · exact slotItem_mono ..
  · split
    · exact (refuse_mono _ _ _).1
    · exact slotItem_mono ..
  · split
    · exact (refuse_mono _ _ _).1
    · exact slotItem_mono ..
  · exact slotItem_mono ..
  · exact slotItem_mono ..
  · split
    · simp [report]
    · exact hr
  · split
    · simp [report]
    · exact hal
  · exact slotItem_mono ..
  · exact slotItem_mono ..
  · exact (pushItem_mono ..).1
  · exact (pushItem_mono ..).1
  · exact (checkUnknownItem_mono ..).1

omit [Env] in
theorem slotFree_apply (k : FieldSt) (a b : FieldAttr) :
    slotFree (fieldApply k a) b = true ↔ slotFree k b = true ∧ (a.key = b.key → a.key ∈ repeatable) := by
  have hk : ∀ {α : Type} (st : FieldStatus α) x, (keepFirst st x).isNone = true ↔ False := by
    intro α st x; cases st <;> simp [keepFirst, FieldStatus.isNone]
  cases a <;> cases b <;> simp [slotFree, fieldApply, FieldAttr.key, repeatable, hk]

omit [Env] in
theorem idents_apply (k : FieldSt) (a : FieldAttr) (x : Str) :
    x ∈ (fieldApply k a).names.idents.map (·.1) ↔
      x ∈ k.names.idents.map (·.1) ∨ ∃ n, a.name? = some n ∧ n.1 = x := by
  cases a <;> simp [fieldApply, FieldAttr.name?, or_comm, eq_comm]

/-- The attributes one by one, starting in some state. -/
structure ListOkFrom (f : FieldIn) (k : FieldSt) (bs : List FieldAttr) : Prop extends FieldListOk f bs where
  free : ∀ b ∈ bs, slotFree k b = true
  fresh : ∀ b ∈ bs, ∀ n, b.name? = some n → n.1 ∉ k.names.idents.map (·.1)

omit [Env] in
theorem allValid_iff (f : FieldIn) (k : FieldSt) (bs : List FieldAttr) :
    AllValid fieldApply (FieldValid f) k bs ↔ ListOkFrom f k bs := by
  induction bs generalizing k with
  | nil =>
    refine ⟨fun _ => ⟨⟨?_, ?_, ?_, ?_⟩, ?_, ?_⟩, fun _ => trivial⟩ <;> simp
  | cons b bs ih =>
    rw [AllValid, ih]
    constructor
    · rintro ⟨h1, ⟨⟨h2, h3, h4, h5⟩, h6, h7⟩⟩
      refine ⟨⟨?_, ?_, ?_, ?_⟩, ?_, ?_⟩
      · rw [List.map_cons, List.filter_cons]
        split
        · rename_i hr
          refine List.nodup_cons.2 ⟨fun hm => ?_, h2⟩
          obtain ⟨c, hc, hce⟩ := List.mem_map.1 (List.mem_filter.1 hm).1
          have := ((slotFree_apply k b c).1 (h6 c hc)).2 hce.symm
          simp at hr; exact hr this
        · exact h2
      · intro hn
        exact List.forall_mem_cons.2 ⟨h1.tuple hn, h3 hn⟩
      · rw [List.filterMap_cons]
        cases hb : b.name? with
        | none => exact h4
        | some n =>
          refine List.nodup_cons.2 ⟨fun hm => ?_, h4⟩
          obtain ⟨m, hm, hme⟩ := List.mem_map.1 hm
          obtain ⟨c, hc, hcm⟩ := List.mem_filterMap.1 hm
          have := h7 c hc m hcm
          rw [idents_apply] at this
          exact this (.inr ⟨n, hb, hme.symm⟩)
      · exact List.forall_mem_cons.2 ⟨fun n hn => (h1.name n hn).2, h5⟩
      · exact List.forall_mem_cons.2 ⟨h1.free, fun c hc => ((slotFree_apply k b c).1 (h6 c hc)).1⟩
      · refine List.forall_mem_cons.2 ⟨fun n hn => (h1.name n hn).1, fun c hc m hm hx => ?_⟩
        exact h7 c hc m hm ((idents_apply ..).2 (.inl hx))
    · rintro ⟨⟨h2, h3, h4, h5⟩, h6, h7⟩
      have hb := List.mem_cons_self (a := b) (l := bs)
      refine ⟨⟨h6 b hb, fun hn => h3 hn b hb, fun n hn => ⟨h7 b hb n hn, h5 b hb n hn⟩⟩, ⟨⟨?_, ?_, ?_, ?_⟩, ?_, ?_⟩⟩
      · rw [List.map_cons, List.filter_cons] at h2
        split at h2
        · exact (List.nodup_cons.1 h2).2
        · exact h2
      · exact fun hn c hc => h3 hn c (List.mem_cons_of_mem _ hc)
      · rw [List.filterMap_cons] at h4
        split at h4
        · exact h4
        · exact (List.nodup_cons.1 h4).2
      · exact fun c hc => h5 c (List.mem_cons_of_mem _ hc)
      · intro c hc
        refine (slotFree_apply k b c).2 ⟨h6 c (List.mem_cons_of_mem _ hc), fun he => ?_⟩
        rw [List.map_cons, List.filter_cons] at h2
        by_cases hr : b.key ∈ repeatable
        · exact hr
        · rw [if_pos (by simpa using hr)] at h2
          refine absurd ?_ (List.nodup_cons.1 h2).1
          exact List.mem_filter.2 ⟨List.mem_map.2 ⟨c, hc, he.symm⟩, by simpa using hr⟩
      · intro c hc m hm hx
        rcases (idents_apply ..).1 hx with hx | ⟨n, hn, he⟩
        · exact h7 c (List.mem_cons_of_mem _ hc) m hm hx
        · rw [List.filterMap_cons, hn] at h4
          refine absurd ?_ (List.nodup_cons.1 h4).1
          exact List.mem_map.2 ⟨m, List.mem_filterMap.2 ⟨c, hc, hm⟩, he.symm⟩

omit [Env] in
theorem allValid_iff_listOk (f : FieldIn) (bs : List FieldAttr) :
    AllValid fieldApply (FieldValid f) {} bs ↔ FieldListOk f bs := by
  rw [allValid_iff]
  refine ⟨fun h => h.toFieldListOk, fun h => ⟨h, fun b _ => by cases b <;> rfl, fun _ _ _ _ => by simp⟩⟩

/-- A slot after reading attributes: what it held, else the first value given. -/
def slotPick {α : Type} (st : FieldStatus α) (o : Option α) : FieldStatus α :=
  match st with
  | .none => .ofOption o
  | s => s

omit [Env] in
theorem slotPick_keep {α : Type} (st : FieldStatus α) (x : α) (o : Option α) :
    slotPick (keepFirst st x) o = slotPick st (some x) := by
  cases st <;> rfl

omit [Env] in
theorem fold_flatten (bs : List FieldAttr) (k : FieldSt) : (bs.foldl fieldApply k).flatten =
    slotPick k.flatten (bs.findSome? FieldAttr.flatten?) := by
  induction bs generalizing k with
  | nil => cases h : k.flatten <;> simp [slotPick, FieldStatus.ofOption, h]
  | cons b bs ih =>
    rw [List.foldl_cons, ih, List.findSome?_cons]
    cases b <;> simp only [fieldApply, FieldAttr.flatten?, slotPick_keep]

omit [Env] in
theorem fold_append (bs : List FieldAttr) (k : FieldSt) : (bs.foldl fieldApply k).append =
    slotPick k.append (bs.findSome? FieldAttr.append?) := by
  induction bs generalizing k with
  | nil => cases h : k.append <;> simp [slotPick, FieldStatus.ofOption, h]
  | cons b bs ih =>
    rw [List.foldl_cons, ih, List.findSome?_cons]
    cases b <;> simp only [fieldApply, FieldAttr.append?, slotPick_keep]

omit [Env] in
theorem fold_rest (bs : List FieldAttr) (k : FieldSt) : (bs.foldl fieldApply k).rest =
    slotPick k.rest (bs.findSome? FieldAttr.rest?) := by
  induction bs generalizing k with
  | nil => cases h : k.rest <;> simp [slotPick, FieldStatus.ofOption, h]
  | cons b bs ih =>
    rw [List.foldl_cons, ih, List.findSome?_cons]
    cases b <;> simp only [fieldApply, FieldAttr.rest?, slotPick_keep]

omit [Env] in
theorem fold_default (bs : List FieldAttr) (k : FieldSt) : (bs.foldl fieldApply k).default =
    slotPick k.default (bs.findSome? FieldAttr.default?) := by
  induction bs generalizing k with
  | nil => cases h : k.default <;> simp [slotPick, FieldStatus.ofOption, h]
  | cons b bs ih =>
    rw [List.foldl_cons, ih, List.findSome?_cons]
    cases b <;> simp only [fieldApply, FieldAttr.default?, slotPick_keep]

omit [Env] in
theorem fold_with (bs : List FieldAttr) (k : FieldSt) : (bs.foldl fieldApply k).with_ =
    slotPick k.with_ (bs.findSome? FieldAttr.with?) := by
  induction bs generalizing k with
  | nil => cases h : k.with_ <;> simp [slotPick, FieldStatus.ofOption, h]
  | cons b bs ih =>
    rw [List.foldl_cons, ih, List.findSome?_cons]
    cases b <;> simp only [fieldApply, FieldAttr.with?, slotPick_keep]

omit [Env] in
theorem fold_container (bs : List FieldAttr) (k : FieldSt) : (bs.foldl fieldApply k).container =
    slotPick k.container (bs.findSome? FieldAttr.container?) := by
  induction bs generalizing k with
  | nil => cases h : k.container <;> simp [slotPick, FieldStatus.ofOption, h]
  | cons b bs ih =>
    rw [List.foldl_cons, ih, List.findSome?_cons]
    cases b <;> simp only [fieldApply, FieldAttr.container?, slotPick_keep]

omit [Env] in
theorem fold_skip (bs : List FieldAttr) (k : FieldSt) : (bs.foldl fieldApply k).skip =
    slotPick k.skip (bs.findSome? FieldAttr.skip?) := by
  induction bs generalizing k with
  | nil => cases h : k.skip <;> simp [slotPick, FieldStatus.ofOption, h]
  | cons b bs ih =>
    rw [List.foldl_cons, ih, List.findSome?_cons]
    cases b <;> simp only [fieldApply, FieldAttr.skip?, slotPick_keep]

omit [Env] in
theorem fold_transforms (bs : List FieldAttr) (k : FieldSt) : (bs.foldl fieldApply k).transforms =
    k.transforms ++ bs.filterMap FieldAttr.transform? := by
  induction bs generalizing k with
  | nil => simp
  | cons b bs ih =>
    rw [List.foldl_cons, ih, List.filterMap_cons]
    cases b <;> simp [fieldApply, FieldAttr.transform?]

omit [Env] in
theorem fold_rename (bs : List FieldAttr) (k : FieldSt) : (bs.foldl fieldApply k).names.rename.isNone =
    (k.names.rename.isNone && (bs.findSome? FieldAttr.rename?).isNone) := by
  induction bs generalizing k with
  | nil => simp
  | cons b bs ih =>
    rw [List.foldl_cons, ih, List.findSome?_cons]
    cases b <;> simp [fieldApply, FieldAttr.rename?]
    case rename sp n => cases h : k.names.rename <;> simp [keepFirst, FieldStatus.isNone]

omit [Env] in
theorem fold_idents (bs : List FieldAttr) (k : FieldSt) : (bs.foldl fieldApply k).names.idents =
    (bs.filterMap FieldAttr.rename?).reverse ++ k.names.idents ++ bs.filterMap FieldAttr.alias? := by
  induction bs generalizing k with
  | nil => simp
  | cons b bs ih =>
    rw [List.foldl_cons, ih, List.filterMap_cons, List.filterMap_cons]
    cases b <;> simp [fieldApply, FieldAttr.rename?, FieldAttr.alias?]

omit [Env] in
/-- At most one attribute renames the field. -/
theorem renames_of_once {bs : List FieldAttr} (h : ((bs.map FieldAttr.key).filter (· ∉ repeatable)).Nodup) :
    bs.filterMap FieldAttr.rename? = (bs.findSome? FieldAttr.rename?).toList := by
  induction bs with
  | nil => rfl
  | cons b bs ih =>
    rw [List.map_cons, List.filter_cons] at h
    have hbs : ((bs.map FieldAttr.key).filter (· ∉ repeatable)).Nodup := by
      split at h
      · exact (List.nodup_cons.1 h).2
      · exact h
    rw [List.filterMap_cons, List.findSome?_cons]
    cases hb : b.rename? with
    | none => exact ih hbs
    | some n =>
      have hk : b.key = "rename" := by cases b <;> simp [FieldAttr.rename?] at hb; rfl
      rw [hk, if_pos (by decide)] at h
      have hno : bs.filterMap FieldAttr.rename? = [] := by
        rw [List.filterMap_eq_nil_iff]
        intro c hc
        cases hcn : c.rename? with
        | none => rfl
        | some m =>
          have hck : c.key = "rename" := by cases c <;> simp [FieldAttr.rename?] at hcn; rfl
          refine absurd (List.mem_filter.2 ⟨List.mem_map.2 ⟨c, hc, hck⟩, by decide⟩) (List.nodup_cons.1 h).1
      simp [hno]

omit [Env] in
theorem fieldDone_declared {f : FieldIn} {bs : List FieldAttr}
    (h : ((bs.map FieldAttr.key).filter (· ∉ repeatable)).Nodup) :
    fieldDone f (bs.foldl fieldApply {}) = declared f bs := by
  have hi : ∀ {α : Type} (o : Option α), (FieldStatus.ofOption o).intoOption = o := by
    intro α o; cases o <;> rfl
  have hp : ∀ {α : Type} (o : Option α), slotPick (FieldStatus.none : FieldStatus α) o = .ofOption o := fun _ => rfl
  have hn : ∀ {α : Type}, (FieldStatus.none : FieldStatus α).isNone = true := rfl
  have hval : ∀ o : Option FlattenD, ((FieldStatus.ofOption o).map (·.value)).unwrapOr false =
      (o.map (·.value)).getD false := by
    intro o; cases o <;> rfl
  unfold fieldDone declared
  simp only [fold_flatten, fold_append, fold_rest, fold_default, fold_with, fold_container, fold_skip,
    fold_transforms, fold_rename, fold_idents, hp, hn, hi, List.append_nil, Bool.true_and, List.nil_append,
    renames_of_once h, hval]
  congr 1
  cases bs.findSome? FieldAttr.rename? with
  | some n => simp
  | none =>
    cases ((bs.findSome? FieldAttr.flatten?).map (·.value)).getD false with
    | true => simp
    | false => cases f.ident <;> simp [unraw_eq]

omit [Env] in
theorem fold_alias (bs : List FieldAttr) (k : FieldSt) : (bs.foldl fieldApply k).names.aliasSpan.isSome =
    (k.names.aliasSpan.isSome || (decide ("alias" ∈ bs.map FieldAttr.key) && k.names.aliasSpan.isNone)) := by
  induction bs generalizing k with
  | nil => simp
  | cons b bs ih =>
    rw [List.foldl_cons, ih]
    cases b <;> simp [fieldApply, FieldAttr.key]
    case alias sp n => cases h : k.names.aliasSpan <;> simp [keepFirst, FieldStatus.isNone, FieldStatus.isSome]

omit [Env] in
theorem fold_renameSome (bs : List FieldAttr) (k : FieldSt) : (bs.foldl fieldApply k).names.rename.isSome =
    (k.names.rename.isSome || (decide ("rename" ∈ bs.map FieldAttr.key) && k.names.rename.isNone)) := by
  induction bs generalizing k with
  | nil => simp
  | cons b bs ih =>
    rw [List.foldl_cons, ih]
    cases b <;> simp [fieldApply, FieldAttr.key]
    case rename sp n => cases h : k.names.rename <;> simp [keepFirst, FieldStatus.isNone, FieldStatus.isSome]

omit [Env] in
theorem isSome_of_key {α : Type} {get : FieldAttr → Option α} {key : String}
    (h : ∀ b, (get b).isSome = true ↔ b.key = key) (bs : List FieldAttr) :
    (slotPick FieldStatus.none (bs.findSome? get)).isSome = true ↔ key ∈ bs.map FieldAttr.key := by
  have h1 : (slotPick FieldStatus.none (bs.findSome? get)).isSome = (bs.findSome? get).isSome := by
    cases bs.findSome? get <;> rfl
  rw [h1, List.findSome?_isSome_iff]
  simp only [h, List.mem_map]

theorem fieldChecks_fold (bs : List FieldAttr) (errs : Errors) :
    (fieldChecks (bs.foldl fieldApply {}) errs).toList = [] ↔ errs.toList = [] ∧ Compatible bs := by
  have hflat := isSome_of_key (get := FieldAttr.flatten?) (key := "flatten")
    (by intro b; cases b <;> simp [FieldAttr.flatten?, FieldAttr.key]) bs
  have happ := isSome_of_key (get := FieldAttr.append?) (key := "append")
    (by intro b; cases b <;> simp [FieldAttr.append?, FieldAttr.key]) bs
  have hrest := isSome_of_key (get := FieldAttr.rest?) (key := "rest")
    (by intro b; cases b <;> simp [FieldAttr.rest?, FieldAttr.key]) bs
  have hcont := isSome_of_key (get := FieldAttr.container?) (key := "container")
    (by intro b; cases b <;> simp [FieldAttr.container?, FieldAttr.key]) bs
  have hwith := isSome_of_key (get := FieldAttr.with?) (key := "with")
    (by intro b; cases b <;> simp [FieldAttr.with?, FieldAttr.key]) bs
  have hdef := isSome_of_key (get := FieldAttr.default?) (key := "default")
    (by intro b; cases b <;> simp [FieldAttr.default?, FieldAttr.key]) bs
  have hren : (bs.foldl fieldApply {}).names.rename.isSome = true ↔ "rename" ∈ bs.map FieldAttr.key := by
    rw [fold_renameSome]; simp [FieldStatus.isSome, FieldStatus.isNone]
  have hali : (bs.foldl fieldApply {}).names.aliasSpan.isSome = true ↔ "alias" ∈ bs.map FieldAttr.key := by
    rw [fold_alias]; simp [FieldStatus.isSome, FieldStatus.isNone]
  rw [fieldChecks_nil, hren, hali, fold_flatten, fold_append, fold_rest, fold_container, fold_with, fold_default,
    hflat, happ, hrest, hcont, hwith, hdef]
  simp only [Compatible, exclusivePairs, List.forall_mem_cons, List.not_mem_nil, false_implies, implies_true, and_true]

/-- What a list of well-formed attributes makes of a field. -/
theorem fieldBody_items {lib : SynLib} {f : FieldIn} {l : List Stream} {bs : List FieldAttr}
    (hi : ItemsAll (FieldSeg lib) l bs) :
    (FieldListOk f bs → fieldBody lib f l =
      ((fieldChecks (bs.foldl fieldApply {}) Errors.new).intoResult (declared f bs), l.map Stream.clear)) ∧
    (¬ FieldListOk f bs → ∀ d l', fieldBody lib f l ≠ (.ok d, l')) := by
  constructor
  · intro hok
    have hp := parseStruct_fold (fieldStep_valid (f := f)) hi {} Errors.new
      ((allValid_iff_listOk f bs).2 hok)
    rw [fieldBody, collectStruct, hp]
    simp only
    rw [fieldDone_declared hok.once]
  · intro hbad d l' h
    have hb := parseStruct_bad (fieldStep_valid (f := f)) (fieldStep_bad (f := f)) (fieldStep_mono lib f) hi {} Errors.new
      (fun h => hbad ((allValid_iff_listOk f bs).1 h))
    obtain ⟨acc, h1, h2, -, -⟩ := collectStruct_ok (fun acc h => ((fieldChecks_nil _ _).1 h).1) h
    rw [h1] at hb
    exact hb h2

end Deluxe
