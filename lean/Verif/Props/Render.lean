import Verif.Model.Render
import Verif.Spec.Reloc
/-!
# C110: A message says which mistake it is and names it
-/
namespace Deluxe

/-! ## Codes -/

/-- A character that neither word contains marks their end. -/
theorem append_mark_inj {c : Char} {a b x y : Str} (ha : c ∉ a) (hb : c ∉ b) (h : a ++ c :: x = b ++ c :: y) :
    a = b ∧ x = y := by
  induction a generalizing b with
  | nil =>
    cases b with
    | nil => simpa using h
    | cons d b =>
      simp only [List.nil_append, List.cons_append, List.cons.injEq] at h
      exact absurd (h.1 ▸ List.mem_cons_self ..) hb
  | cons d a ih =>
    cases b with
    | nil =>
      simp only [List.nil_append, List.cons_append, List.cons.injEq] at h
      exact absurd (h.1 ▸ List.mem_cons_self ..) ha
    | cons e b =>
      simp only [List.cons_append, List.cons.injEq] at h
      have := ih (fun h => ha (List.mem_cons_of_mem _ h)) (fun h => hb (List.mem_cons_of_mem _ h)) h.2
      exact ⟨by rw [h.1, this.1], this.2⟩

/-- The end of a word: nothing, or the separator. -/
def EndsWord (c : Char) (r : Str) : Prop := r = [] ∨ ∃ x, r = c :: x

theorem append_end_inj {c : Char} {a b x y : Str} (ha : c ∉ a) (hb : c ∉ b) (hx : EndsWord c x) (hy : EndsWord c y)
    (h : a ++ x = b ++ y) : a = b ∧ x = y := by
  rcases hx with rfl | ⟨x, rfl⟩ <;> rcases hy with rfl | ⟨y, rfl⟩
  · simpa using h
  · exact absurd (show c ∈ a by rw [List.append_nil] at h; rw [h]; simp) ha
  · exact absurd (show c ∈ b by rw [List.append_nil] at h; rw [← h]; simp) hb
  · have := append_mark_inj ha hb h
    exact ⟨this.1, by rw [this.2]⟩

/-- Lists of words whose ends can be recognised, with a separator, are read back. -/
theorem joinStrs_inj {c : Char} {sep : Str} {P Q : Str → Prop}
    (code : ∀ a b x y, P a → P b → Q x → Q y → a ++ x = b ++ y → a = b ∧ x = y) (hsep : ∀ x, Q (c :: sep ++ x))
    {l l' : List Str} (hl : ∀ a ∈ l, P a) (hl' : ∀ a ∈ l', P a) {r r' : Str} (hr : Q r) (hr' : Q r')
    (hn : ∀ x, r ≠ c :: x) (hn' : ∀ x, r' ≠ c :: x) (hs : ∀ a x, P a → r ≠ a ++ x) (hs' : ∀ a x, P a → r' ≠ a ++ x)
    (h : joinStrs (c :: sep) l ++ r = joinStrs (c :: sep) l' ++ r') : l = l' ∧ r = r' := by
  induction l generalizing l' with
  | nil =>
    match l', hl' with
    | [], _ => exact ⟨rfl, by simpa [joinStrs] using h⟩
    | [a], hl' => exact absurd h (hs a _ (hl' a (by simp)))
    | a :: b :: m, hl' =>
      simp only [joinStrs, List.nil_append, List.append_assoc] at h
      exact absurd h (hs a _ (hl' a (by simp)))
  | cons a l ih =>
    match l, l' with
    | [], [] => exact absurd h.symm (hs' a _ (hl a (by simp)))
    | b :: m, [] =>
      simp only [joinStrs, List.nil_append, List.append_assoc] at h
      exact absurd h.symm (hs' a _ (hl a (by simp)))
    | [], [a'] =>
      have := code a a' r r' (hl a (by simp)) (hl' a' (by simp)) hr hr' h
      exact ⟨by rw [this.1], this.2⟩
    | [], a' :: b' :: m' =>
      simp only [joinStrs, List.append_assoc] at h
      have := code a a' r _ (hl a (by simp)) (hl' a' (by simp)) hr (hsep _) h
      exact absurd this.2 (hn _)
    | b :: m, [a'] =>
      simp only [joinStrs, List.append_assoc] at h
      have := code a a' _ r' (hl a (by simp)) (hl' a' (by simp)) (hsep _) hr' h
      exact absurd this.2.symm (hn' _)
    | b :: m, a' :: b' :: m' =>
      simp only [joinStrs, List.append_assoc] at h
      have := code a a' _ _ (hl a (by simp)) (hl' a' (by simp)) (hsep _) (hsep _) h
      have h2 := List.append_cancel_left this.2
      have := ih (fun x hx => hl x (List.mem_cons_of_mem _ hx)) (l' := b' :: m')
        (fun x hx => hl' x (List.mem_cons_of_mem _ hx)) h2
      exact ⟨by rw [‹a = a' ∧ _›.1, this.1], this.2⟩

theorem mem_joinStrs {sep : Str} {l : List Str} {c : Char} (h : c ∈ joinStrs sep l) : c ∈ sep ∨ ∃ s ∈ l, c ∈ s := by
  induction l with
  | nil => simp [joinStrs] at h
  | cons a l ih =>
    match l with
    | [] => exact .inr ⟨a, by simp, h⟩
    | b :: m =>
      simp only [joinStrs, List.mem_append] at h
      rcases h with (h | h) | h
      · exact .inr ⟨a, by simp, h⟩
      · exact .inl h
      · rcases ih h with h | ⟨s, hs, h⟩
        · exact .inl h
        · exact .inr ⟨s, List.mem_cons_of_mem _ hs, h⟩

/-! ## Names -/

/-- A name as the user can write it, a path or an index: not empty, and without the characters that the messages put
around names. -/
def IsName (n : Str) : Prop := n ≠ [] ∧ ∀ c ∈ n, c ∉ ['`', '|', ',', '(', ')']

theorem IsName.not {n : Str} (h : IsName n) {c : Char} (hc : c ∈ ['`', '|', ',', '(', ')']) : c ∉ n :=
  fun hm => h.2 c hm hc

theorem quoteName_inj {a b x y : Str} (ha : '`' ∉ a) (hb : '`' ∉ b) (h : quoteName a ++ x = quoteName b ++ y) :
    a = b ∧ x = y := by
  simp only [quoteName, List.cons_append, List.append_assoc, List.nil_append, List.cons.injEq, true_and] at h
  exact append_mark_inj ha hb h

theorem quoteLoop_eq (s : Str) (l : List Str) :
    quoteLoop s l = if s = [] then joinStrs ", ".toList (l.map quoteName) else
      s ++ (l.map fun n => ", ".toList ++ quoteName n).flatten := by
  induction l generalizing s with
  | nil => cases s <;> simp [quoteLoop, joinStrs]
  | cons n l ih =>
    have hq : quoteName n ≠ [] := by simp [quoteName]
    have hj : ∀ (m : List Str) (n : Str), joinStrs ", ".toList (quoteName n :: m.map quoteName) =
        quoteName n ++ (m.map fun n => ", ".toList ++ quoteName n).flatten := by
      intro m
      induction m with
      | nil => intro n; simp [joinStrs]
      | cons k m ih =>
        intro n
        simp only [List.map_cons, joinStrs, ih, List.flatten_cons, List.append_assoc]
    cases s with
    | nil => simp only [quoteLoop, List.isEmpty_nil, if_true, ih, List.nil_append, hq, if_false, List.map_cons, hj]
    | cons c s =>
      simp only [quoteLoop, List.isEmpty_cons, Bool.false_eq_true, if_false, ih]
      simp

/-- **C110.**  The names in the messages of the validations are quoted and separated by commas. -/
theorem c110_quoted_list (l : List Str) : quoteLoop [] l = joinStrs ", ".toList (l.map quoteName) := by
  simp [quoteLoop_eq]

theorem quoteLoop_inj {l l' : List Str} (hl : ∀ n ∈ l, IsName n) (hl' : ∀ n ∈ l', IsName n) {x y : Str}
    (h : quoteLoop [] l ++ ' ' :: x = quoteLoop [] l' ++ ' ' :: y) : l = l' ∧ x = y := by
  rw [c110_quoted_list, c110_quoted_list] at h
  have hm : ∀ {l : List Str}, (∀ n ∈ l, IsName n) → ∀ a ∈ l.map quoteName, ∃ n, IsName n ∧ a = quoteName n := by
    intro l hl a ha
    obtain ⟨n, hn, rfl⟩ := List.mem_map.1 ha
    exact ⟨n, hl n hn, rfl⟩
  have := joinStrs_inj (c := ',') (sep := [' ']) (P := fun a => ∃ n, IsName n ∧ a = quoteName n) (Q := fun _ => True)
    (by
      rintro a b x y ⟨n, hn, rfl⟩ ⟨m, hm, rfl⟩ _ _ h
      have := quoteName_inj (hn.not (by simp)) (hm.not (by simp)) h
      exact ⟨by rw [this.1], this.2⟩) (fun _ => trivial) (hm hl) (hm hl') trivial trivial (by simp) (by simp)
    (by rintro a x ⟨n, _, rfl⟩; simp [quoteName]) (by rintro a x ⟨n, _, rfl⟩; simp [quoteName]) h
  refine ⟨?_, (List.cons.inj this.2).2⟩
  have e := this.1
  clear this h hm
  induction l generalizing l' with
  | nil =>
    cases l' with
    | nil => rfl
    | cons _ _ => simp at e
  | cons a l ih =>
    cases l' with
    | nil => simp at e
    | cons b l' =>
      simp only [List.map_cons, List.cons.injEq] at e
      have h1 := quoteName_inj (x := []) (y := []) ((hl a (by simp)).not (by simp)) ((hl' b (by simp)).not (by simp))
        (by simp [e.1])
      rw [h1.1, ih (fun n hn => hl n (List.mem_cons_of_mem _ hn)) (fun n hn => hl' n (List.mem_cons_of_mem _ hn)) e.2]

/-! ## Variants -/

/-- The names of the fields that identify a variant: each field has a name. -/
def IsKey (k : List (List Str)) : Prop := ∀ names ∈ k, names ≠ [] ∧ ∀ n ∈ names, IsName n

theorem joinBar_inj {l l' : List Str} (hl : ∀ n ∈ l, IsName n) (hl' : ∀ n ∈ l', IsName n)
    (h : joinStrs ['|'] l = joinStrs ['|'] l') : l = l' := by
  have := joinStrs_inj (c := '|') (sep := []) (P := IsName) (Q := EndsWord '|') (r := []) (r' := [])
    (fun a b x y ha hb hx hy h => append_end_inj (ha.not (by simp)) (hb.not (by simp)) hx hy h)
    (fun x => .inr ⟨x, rfl⟩) hl hl' (.inl rfl) (.inl rfl) (by simp) (by simp)
    (fun a x ha h => ha.1 (List.append_eq_nil_iff.1 h.symm).1) (fun a x ha h => ha.1 (List.append_eq_nil_iff.1 h.symm).1)
    (by simpa using h)
  exact this.1

/-- A field of a variant as printed: its names with bars. -/
def IsField (s : Str) : Prop := s ≠ [] ∧ ∀ c ∈ s, c ∉ ['`', ',', '(', ')']

theorem isField_join {l : List Str} (hn : l ≠ []) (hl : ∀ n ∈ l, IsName n) : IsField (joinStrs ['|'] l) := by
  refine ⟨?_, fun c hc hc' => ?_⟩
  · match l, hn with
    | [a], _ => exact (hl a (by simp)).1
    | a :: b :: m, _ => simp [joinStrs]
  · rcases mem_joinStrs hc with h | ⟨s, hs, h⟩
    · simp only [List.mem_singleton] at h
      subst h
      simp at hc'
    · exact (hl s hs).2 c h (by simp at hc' ⊢; rcases hc' with h | h | h | h <;> simp [h])

theorem IsField.not {s : Str} (h : IsField s) {c : Char} (hc : c ∈ ['`', ',', '(', ')']) : c ∉ s :=
  fun hm => h.2 c hm hc

theorem joinFields_inj {l l' : List Str} (hl : ∀ s ∈ l, IsField s) (hl' : ∀ s ∈ l', IsField s)
    (h : joinStrs ", ".toList l = joinStrs ", ".toList l') : l = l' :=
  (joinStrs_inj (c := ',') (sep := [' ']) (P := IsField) (Q := EndsWord ',') (r := []) (r' := [])
    (fun a b x y ha hb hx hy h => append_end_inj (ha.not (by simp)) (hb.not (by simp)) hx hy h)
    (fun x => .inr ⟨' ' :: x, rfl⟩) hl hl' (.inl rfl) (.inl rfl) (by simp) (by simp)
    (fun a x ha h => ha.1 (List.append_eq_nil_iff.1 h.symm).1) (fun a x ha h => ha.1 (List.append_eq_nil_iff.1 h.symm).1)
    (by simpa using h)).1

theorem fields_inj {k k' : List (List Str)} (hk : IsKey k) (hk' : IsKey k')
    (h : k.map (joinStrs ['|']) = k'.map (joinStrs ['|'])) : k = k' := by
  induction k generalizing k' with
  | nil =>
    cases k' with
    | nil => rfl
    | cons _ _ => simp at h
  | cons a k ih =>
    cases k' with
    | nil => simp at h
    | cons b k' =>
      simp only [List.map_cons, List.cons.injEq] at h
      rw [joinBar_inj (hk a (by simp)).2 (hk' b (by simp)).2 h.1,
        ih (fun n hn => hk n (List.mem_cons_of_mem _ hn)) (fun n hn => hk' n (List.mem_cons_of_mem _ hn)) h.2]

theorem renderKey_cases (k : List (List Str)) : (∃ names, k = [names] ∧ renderKey k = joinStrs ['|'] names) ∨
    (k.length ≠ 1 ∧ renderKey k = '(' :: joinStrs ", ".toList (k.map (joinStrs ['|'])) ++ [')']) := by
  match k with
  | [] => exact .inr ⟨by simp, rfl⟩
  | [a] => exact .inl ⟨a, rfl, rfl⟩
  | a :: b :: m => exact .inr ⟨by simp, rfl⟩

theorem not_mem_fields {k : List (List Str)} (hk : IsKey k) : ')' ∉ joinStrs ", ".toList (k.map (joinStrs ['|'])) := by
  intro h
  rcases mem_joinStrs h with h | ⟨s, hs, h⟩
  · revert h
    decide
  · obtain ⟨names, hn, rfl⟩ := List.mem_map.1 hs
    exact (isField_join (hk names hn).1 (hk names hn).2).not (by simp) h

theorem renderKey_inj {k k' : List (List Str)} (hk : IsKey k) (hk' : IsKey k') {x y : Str} (hx : EndsWord ',' x)
    (hy : EndsWord ',' y) (h : renderKey k ++ x = renderKey k' ++ y) : k = k' ∧ x = y := by
  have hf : ∀ {k : List (List Str)}, IsKey k → ∀ s ∈ k.map (joinStrs ['|']), IsField s := by
    intro k hk s hs
    obtain ⟨names, hn, rfl⟩ := List.mem_map.1 hs
    exact isField_join (hk names hn).1 (hk names hn).2
  have hne : ∀ {names : List Str} {x y : Str}, IsKey [names] → joinStrs ['|'] names ++ x ≠ '(' :: y := by
    intro names x y h e
    have hi := isField_join (h names (by simp)).1 (h names (by simp)).2
    cases hj : joinStrs ['|'] names with
    | nil => exact hi.1 hj
    | cons c s =>
      rw [hj] at e
      simp only [List.cons_append, List.cons.injEq] at e
      exact hi.not (c := '(') (by simp) (by rw [hj, e.1]; simp)
  rcases renderKey_cases k with ⟨a, rfl, e⟩ | ⟨hl, e⟩ <;> rcases renderKey_cases k' with ⟨a', rfl, e'⟩ | ⟨hl', e'⟩ <;>
    rw [e, e'] at h
  · have ha := hk a (by simp)
    have ha' := hk' a' (by simp)
    have := append_end_inj ((isField_join ha.1 ha.2).not (by simp)) ((isField_join ha'.1 ha'.2).not (by simp)) hx hy h
    exact ⟨by rw [joinBar_inj ha.2 ha'.2 this.1], this.2⟩
  · exact absurd h (hne hk)
  · exact absurd h.symm (hne hk')
  · simp only [List.cons_append, List.append_assoc, List.nil_append, List.cons.injEq, true_and] at h
    have := append_mark_inj (not_mem_fields hk) (not_mem_fields hk') h
    exact ⟨fields_inj hk hk' (joinFields_inj (hf hk) (hf hk') this.1), this.2⟩

theorem renderKey_ne_nil {k : List (List Str)} (hk : IsKey k) : renderKey k ≠ [] := by
  rcases renderKey_cases k with ⟨a, rfl, e⟩ | ⟨_, e⟩ <;> rw [e]
  · exact (isField_join (hk a (by simp)).1 (hk a (by simp)).2).1
  · simp

theorem keys_inj {l l' : List (List (List Str))} (hl : ∀ k ∈ l, IsKey k) (hl' : ∀ k ∈ l', IsKey k)
    (h : joinStrs ", ".toList (l.map renderKey) = joinStrs ", ".toList (l'.map renderKey)) : l = l' := by
  have hm : ∀ {l : List (List (List Str))}, (∀ k ∈ l, IsKey k) → ∀ a ∈ l.map renderKey, ∃ k, IsKey k ∧ a = renderKey k := by
    intro l hl a ha
    obtain ⟨n, hn, rfl⟩ := List.mem_map.1 ha
    exact ⟨n, hl n hn, rfl⟩
  have hnil : ∀ (a x : Str), (∃ k, IsKey k ∧ a = renderKey k) → ([] : Str) ≠ a ++ x := by
    rintro a x ⟨k, hk, rfl⟩ h
    exact renderKey_ne_nil hk (List.append_eq_nil_iff.1 h.symm).1
  have := (joinStrs_inj (c := ',') (sep := [' ']) (P := fun a => ∃ k, IsKey k ∧ a = renderKey k) (Q := EndsWord ',')
    (r := []) (r' := [])
    (by
      rintro a b x y ⟨n, hn, rfl⟩ ⟨m, hm, rfl⟩ hx hy h
      have := renderKey_inj hn hm hx hy h
      exact ⟨by rw [this.1], this.2⟩) (fun x => .inr ⟨' ' :: x, rfl⟩) (hm hl) (hm hl') (.inl rfl) (.inl rfl)
      (by simp) (by simp) hnil hnil (by simpa using h)).1
  clear h hm
  induction l generalizing l' with
  | nil =>
    cases l' with
    | nil => rfl
    | cons _ _ => simp at this
  | cons a l ih =>
    cases l' with
    | nil => simp at this
    | cons b l' =>
      simp only [List.map_cons, List.cons.injEq] at this
      have h1 := renderKey_inj (x := []) (y := []) (hl a (by simp)) (hl' b (by simp)) (.inl rfl) (.inl rfl)
        (by simp [this.1])
      rw [h1.1, ih (fun n hn => hl n (List.mem_cons_of_mem _ hn)) (fun n hn => hl' n (List.mem_cons_of_mem _ hn)) this.2]

/-! ## Numbers -/

theorem renderNat_inj {a b : Nat} (h : renderNat a = renderNat b) : a = b := by
  have := congrArg (Nat.ofDigitChars 10 · 0) h
  simpa [renderNat, Nat.ofDigitChars_toDigits] using this

theorem renderNat_not {a : Nat} {c : Char} (hc : c.isDigit = false) : c ∉ renderNat a := fun h => by
  have := Nat.isDigit_of_mem_toDigits (by decide) (by decide) h
  rw [hc] at this
  simp at this

/-! ## The text of each message -/

section
variable (tree : Tok → Str)

theorem render_unexpectedTree (t) : Text.render tree (.unexpectedTree t) = "unexpected token ".toList ++ quoteName (tree t) := rfl
theorem render_unexpectedToken : Text.render tree .unexpectedToken = "unexpected token".toList := rfl
theorem render_expectedPath : Text.render tree .expectedPath = "expected path".toList := rfl
theorem render_expectedPathSegment : Text.render tree .expectedPathSegment = "expected path segment".toList := rfl
theorem render_atEof (t : Text) : Text.render tree (.atEof t) = "unexpected end of input, ".toList ++ t.render tree := rfl
theorem render_duplicateAttr (n) : Text.render tree (.duplicateAttr n) = "duplicate attribute for ".toList ++ quoteName n := rfl
theorem render_missingField (n) : Text.render tree (.missingField n) = "missing required field ".toList ++ n := rfl
theorem render_flagDisallowed : Text.render tree .flagDisallowed = "unexpected flag, expected `=` or parentheses".toList := rfl
theorem render_unknownField (p c) : Text.render tree (.unknownField p c) = "unknown field ".toList ++ quoteName p ++
    (match c with | some c => ", did you mean ".toList ++ quoteName c ++ ['?'] | none => []) := by
  cases c
  · exact (List.append_nil _).symm
  · simp only [← List.append_assoc]
    rfl
theorem render_notAllowedWith (p c) : Text.render tree (.notAllowedWith p c) =
    quoteName p ++ " not allowed with variant ".toList ++ quoteName c := rfl
theorem render_onlyOneVariant (a b) : Text.render tree (.onlyOneVariant a b) =
    "expected only one enum variant, got ".toList ++ quoteName a ++ " and ".toList ++ quoteName b := rfl
theorem render_expectedOneOf (vs) : Text.render tree (.expectedOneOf vs) =
    "expected one of ".toList ++ joinStrs ", ".toList (vs.map renderKey) := rfl
theorem render_arrayLen (i n k) : Text.render tree (.arrayLen i n k) = "Expected array at index ".toList ++ renderNat i ++
    " of length ".toList ++ renderNat n ++ ", got ".toList ++ renderNat k := rfl
theorem render_tupleLen (n k) : Text.render tree (.tupleLen n k) = "Expected tuple of length ".toList ++ renderNat n ++
    ", got ".toList ++ renderNat k := rfl
theorem render_duplicateKey : Text.render tree .duplicateKey = "Duplicate key".toList := rfl
theorem render_flagOnlyNamed : Text.render tree .flagOnlyNamed =
    "field with type `Flag` can only be a named field with no value".toList := rfl
theorem render_unexpectedComma : Text.render tree .unexpectedComma = "unexpected comma".toList := rfl
theorem render_expectedToken : Text.render tree .expectedToken = "expected token".toList := rfl
theorem render_onlyOneOf (ns) : Text.render tree (.onlyOneOf ns) =
    "only one of ".toList ++ quoteLoop [] ns ++ " is allowed".toList := rfl
theorem render_mustAlsoBeSet (ns n) : Text.render tree (.mustAlsoBeSet ns n) =
    quoteLoop [] ns ++ " must also be set in order to use ".toList ++ quoteName n := rfl

end

/-- The messages of this library about an input, with names that can be written.  Not among them: the messages of `syn`,
those of the user, and the one that quotes a token. -/
def Text.Own : Text → Prop
  | .unexpectedTree _ | .expectedPunct _ | .expectedDelim _ | .expected _ | .atEof _ | .custom _ => False
  | .duplicateAttr n => IsName n
  | .unknownField p c => IsName p ∧ ∀ n, c = some n → IsName n
  | .notAllowedWith p c => IsName p ∧ IsName c
  | .onlyOneVariant a b => IsName a ∧ IsName b
  | .expectedOneOf vs => ∀ k ∈ vs, IsKey k
  | .onlyOneOf ns => ∀ n ∈ ns, IsName n
  | .mustAlsoBeSet ns n => (∀ n ∈ ns, IsName n) ∧ ns ≠ [] ∧ IsName n
  | _ => True

/-- The beginnings of the messages, with the end of the line if the message is always the same. -/
def heads : List Str := ["unexpected token\n".toList, "expected path\n".toList, "expected path segment\n".toList,
  "duplicate attribute for ".toList, "missing required field ".toList, "unexpected flag".toList, "unknown field ".toList,
  "`".toList, "expected only one enum variant".toList, "expected one of ".toList, "Expected array".toList,
  "Expected tuple".toList, "Duplicate key\n".toList, "field with type `Flag`".toList, "unexpected comma\n".toList,
  "expected token\n".toList, "only one of ".toList, "unexpected token `".toList]

/-- Which beginning a message has. -/
def Text.kind : Text → Nat
  | .unexpectedToken => 0
  | .expectedPath => 1
  | .expectedPathSegment => 2
  | .duplicateAttr _ => 3
  | .missingField _ => 4
  | .flagDisallowed => 5
  | .unknownField .. => 6
  | .notAllowedWith .. => 7
  | .onlyOneVariant .. => 8
  | .expectedOneOf _ => 9
  | .arrayLen .. => 10
  | .tupleLen .. => 11
  | .duplicateKey => 12
  | .flagOnlyNamed => 13
  | .unexpectedComma => 14
  | .expectedToken => 15
  | .onlyOneOf _ => 16
  | .mustAlsoBeSet .. => 7
  | .unexpectedTree _ => 17
  | _ => 18

theorem heads_apart : ∀ i < 18, ∀ j < 18, (heads[i]?.getD []).isPrefixOf (heads[j]?.getD []) = true → i = j := by decide

theorem heads_inj {i j : Nat} (hi : i < 18) (hj : j < 18) {x y : Str}
    (h : heads[i]?.getD [] ++ x = heads[j]?.getD [] ++ y) : i = j := by
  have h1 : heads[i]?.getD [] <+: heads[i]?.getD [] ++ x := List.prefix_append ..
  have h2 : heads[j]?.getD [] <+: heads[i]?.getD [] ++ x := h ▸ List.prefix_append ..
  rcases Nat.le_total (heads[i]?.getD []).length (heads[j]?.getD []).length with hl | hl
  · exact heads_apart i hi j hj (List.isPrefixOf_iff_prefix.2 (List.prefix_of_prefix_length_le h1 h2 hl))
  · exact (heads_apart j hj i hi (List.isPrefixOf_iff_prefix.2 (List.prefix_of_prefix_length_le h2 h1 hl))).symm

/-- The message is one of the library, perhaps one that quotes a token. -/
def Text.OwnOrTree (t : Text) : Prop := t.Own ∨ ∃ a, t = .unexpectedTree a

theorem render_head (tree : Tok → Str) {t : Text} (h : t.OwnOrTree) :
    t.kind < 18 ∧ ∃ x, t.render tree ++ ['\n'] = heads[t.kind]?.getD [] ++ x := by
  rcases h with h | ⟨a, rfl⟩
  · cases t with
    | unexpectedTree _ | expectedPunct _ | expectedDelim _ | expected _ | atEof _ | custom _ => exact h.elim
    | unexpectedToken => rw [render_unexpectedToken]; simp [Text.kind, heads]
    | expectedPath => rw [render_expectedPath]; simp [Text.kind, heads]
    | expectedPathSegment => rw [render_expectedPathSegment]; simp [Text.kind, heads]
    | duplicateKey => rw [render_duplicateKey]; simp [Text.kind, heads]
    | unexpectedComma => rw [render_unexpectedComma]; simp [Text.kind, heads]
    | expectedToken => rw [render_expectedToken]; simp [Text.kind, heads]
    | flagDisallowed => rw [render_flagDisallowed]; simp [Text.kind, heads]
    | flagOnlyNamed => rw [render_flagOnlyNamed]; simp [Text.kind, heads]
    | duplicateAttr n => rw [render_duplicateAttr]; simp [Text.kind, heads]
    | missingField n => rw [render_missingField]; simp [Text.kind, heads]
    | unknownField p c => rw [render_unknownField]; simp [Text.kind, heads]
    | notAllowedWith p c => rw [render_notAllowedWith]; simp [Text.kind, heads, quoteName]
    | onlyOneVariant a b => rw [render_onlyOneVariant]; simp [Text.kind, heads]
    | expectedOneOf vs => rw [render_expectedOneOf]; simp [Text.kind, heads]
    | arrayLen i n k => rw [render_arrayLen]; simp [Text.kind, heads]
    | tupleLen n k => rw [render_tupleLen]; simp [Text.kind, heads]
    | onlyOneOf ns => rw [render_onlyOneOf]; simp [Text.kind, heads]
    | mustAlsoBeSet ns n =>
      obtain ⟨_, hne, _⟩ := h
      rw [render_mustAlsoBeSet, c110_quoted_list]
      match ns, hne with
      | [a], _ => simp [Text.kind, heads, joinStrs, quoteName]
      | a :: b :: m, _ => simp [Text.kind, heads, joinStrs, quoteName]
  · rw [render_unexpectedTree]
    simp [Text.kind, heads, quoteName]

theorem kind_eq {tree : Tok → Str} {t t' : Text} (h : t.OwnOrTree) (h' : t'.OwnOrTree)
    (e : t.render tree = t'.render tree) : t.kind = t'.kind := by
  obtain ⟨hi, x, hx⟩ := render_head tree h
  obtain ⟨hj, y, hy⟩ := render_head tree h'
  rw [e] at hx
  exact heads_inj hi hj (hx.symm.trans hy)

theorem quoteLoop_cons (a : Str) (l : List Str) :
    quoteLoop [] (a :: l) = quoteName a ++ (l.map fun n => ", ".toList ++ quoteName n).flatten := by
  have h := quoteLoop_eq (quoteName a) l
  rw [if_neg (by simp [quoteName])] at h
  simpa [quoteLoop] using h

theorem notAllowed_ne_must (tree : Tok → Str) {p c n : Str} {ns : List Str} (h : (Text.notAllowedWith p c).Own)
    (h' : (Text.mustAlsoBeSet ns n).Own) :
    (Text.notAllowedWith p c).render tree ≠ (Text.mustAlsoBeSet ns n).render tree := by
  intro e
  match ns, h'.2.1 with
  | a :: l, _ =>
    rw [render_notAllowedWith, render_mustAlsoBeSet, quoteLoop_cons] at e
    simp only [List.append_assoc] at e
    have := (quoteName_inj (h.1.not (by simp)) ((h'.1 a (by simp)).not (by simp)) e).2
    cases l <;> simp at this

/-- **C110.**  Two messages of the library that read the same are the same: the text tells the mistake and all that is
named in it. -/
theorem c110_text_tells {tree : Tok → Str} {t t' : Text} (h : t.Own) (h' : t'.Own)
    (e : t.render tree = t'.render tree) : t = t' := by
  have hk := kind_eq (.inl h) (.inl h') e
  cases t <;> first | exact h.elim | skip
  case unexpectedToken => cases t' <;> simp [Text.kind] at hk <;> rfl
  case expectedPath => cases t' <;> simp [Text.kind] at hk <;> rfl
  case expectedPathSegment => cases t' <;> simp [Text.kind] at hk <;> rfl
  case duplicateKey => cases t' <;> simp [Text.kind] at hk <;> rfl
  case unexpectedComma => cases t' <;> simp [Text.kind] at hk <;> rfl
  case expectedToken => cases t' <;> simp [Text.kind] at hk <;> rfl
  case flagDisallowed => cases t' <;> simp [Text.kind] at hk <;> rfl
  case flagOnlyNamed => cases t' <;> simp [Text.kind] at hk <;> rfl
  case duplicateAttr n =>
    cases t' <;> simp [Text.kind] at hk
    rename_i m
    rw [render_duplicateAttr, render_duplicateAttr] at e
    have := quoteName_inj (x := []) (y := []) (h.not (by simp)) (h'.not (by simp))
      (by rw [List.append_cancel_left e])
    rw [this.1]
  case missingField n =>
    cases t' <;> simp [Text.kind] at hk
    rw [render_missingField, render_missingField] at e
    rw [List.append_cancel_left e]
  case unknownField p c =>
    cases t' <;> simp [Text.kind] at hk
    rename_i p' c'
    rw [render_unknownField, render_unknownField, List.append_assoc, List.append_assoc] at e
    have := quoteName_inj (h.1.not (by simp)) (h'.1.not (by simp)) (List.append_cancel_left e)
    obtain ⟨rfl, e2⟩ := this
    clear e
    cases c <;> cases c'
    · rfl
    · simp at e2
    · simp at e2
    · rename_i c c'
      simp only [List.append_assoc] at e2
      have := quoteName_inj ((h.2 c rfl).not (by simp)) ((h'.2 c' rfl).not (by simp)) (List.append_cancel_left e2)
      rw [this.1]
  case notAllowedWith p c =>
    cases t' <;> simp [Text.kind] at hk
    · rename_i p' c'
      rw [render_notAllowedWith, render_notAllowedWith, List.append_assoc, List.append_assoc] at e
      obtain ⟨rfl, e2⟩ := quoteName_inj (h.1.not (by simp)) (h'.1.not (by simp)) e
      have := quoteName_inj (x := []) (y := []) (h.2.not (by simp)) (h'.2.not (by simp))
        (by rw [List.append_cancel_left e2])
      rw [this.1]
    · rename_i ns n
      exact absurd e (notAllowed_ne_must _ h h')
  case onlyOneVariant a b =>
    cases t' <;> simp [Text.kind] at hk
    rename_i a' b'
    simp only [render_onlyOneVariant, List.append_assoc] at e
    obtain ⟨rfl, e2⟩ := quoteName_inj (h.1.not (by simp)) (h'.1.not (by simp)) (List.append_cancel_left e)
    have := quoteName_inj (x := []) (y := []) (h.2.not (by simp)) (h'.2.not (by simp))
      (by rw [List.append_cancel_left e2])
    rw [this.1]
  case expectedOneOf vs =>
    cases t' <;> simp [Text.kind] at hk
    rw [render_expectedOneOf, render_expectedOneOf] at e
    rw [keys_inj h h' (List.append_cancel_left e)]
  case arrayLen i n k =>
    cases t' <;> simp [Text.kind] at hk
    rename_i i' n' k'
    simp only [render_arrayLen, List.append_assoc] at e
    obtain ⟨e1, e⟩ := append_mark_inj (c := ' ') (renderNat_not rfl) (renderNat_not rfl) (List.append_cancel_left e)
    obtain ⟨e2, e⟩ := append_mark_inj (c := ',') (x := " got ".toList ++ renderNat k) (y := " got ".toList ++ renderNat k')
      (renderNat_not rfl) (renderNat_not rfl) (by simpa using e)
    rw [renderNat_inj e1, renderNat_inj e2, renderNat_inj (List.append_cancel_left e)]
  case tupleLen n k =>
    cases t' <;> simp [Text.kind] at hk
    rename_i n' k'
    simp only [render_tupleLen, List.append_assoc] at e
    obtain ⟨e2, e⟩ := append_mark_inj (c := ',') (x := " got ".toList ++ renderNat k) (y := " got ".toList ++ renderNat k')
      (renderNat_not rfl) (renderNat_not rfl) (by simpa using e)
    rw [renderNat_inj e2, renderNat_inj (List.append_cancel_left e)]
  case onlyOneOf ns =>
    cases t' <;> simp [Text.kind] at hk
    simp only [render_onlyOneOf, List.append_assoc] at e
    rw [(quoteLoop_inj h h' (List.append_cancel_left e)).1]
  case mustAlsoBeSet ns n =>
    cases t' <;> simp [Text.kind] at hk
    · exact absurd e.symm (notAllowed_ne_must _ h' h)
    · rename_i ns' n'
      simp only [render_mustAlsoBeSet, List.append_assoc] at e
      obtain ⟨e1, e⟩ := quoteLoop_inj h.1 h'.1 e
      have := quoteName_inj (x := []) (y := []) (h.2.2.not (by simp)) (h'.2.2.not (by simp))
        (by simpa using e)
      rw [e1, this.1]

/-- **C110.**  A message that quotes a token is not mistaken for another, and two of them that read the same quote tokens
that read the same. -/
theorem c110_token_quoted {tree : Tok → Str} {a : Tok} {t : Text} (h : t.OwnOrTree)
    (e : (Text.unexpectedTree a).render tree = t.render tree) : ∃ b, t = .unexpectedTree b ∧ tree a = tree b := by
  have hk := kind_eq (.inr ⟨a, rfl⟩) h e
  rcases h with h | ⟨b, rfl⟩
  · cases t <;> simp [Text.kind] at hk
    exact h.elim
  · refine ⟨b, rfl, ?_⟩
    rw [render_unexpectedTree, render_unexpectedTree] at e
    simpa [quoteName] using e

/-- Tokens are printed without their locations. -/
def PrintsPlaceless (tree : Tok → Str) : Prop := ∀ (f : Span → Span) t, tree (t.reloc f) = tree t

/-- **C110.**  With C109: what is read does not depend on locations, and neither do the words of its messages. -/
theorem c110_reloc {tree : Tok → Str} (ht : PrintsPlaceless tree) (f : Span → Span) (t : Text) :
    (t.reloc f).render tree = t.render tree := by
  induction t with
  | unexpectedTree a =>
    have : (Text.unexpectedTree a).reloc f = .unexpectedTree (a.reloc f) := rfl
    rw [this, render_unexpectedTree, render_unexpectedTree, ht]
  | atEof t ih =>
    have : (Text.atEof t).reloc f = .atEof (t.reloc f) := rfl
    rw [this, render_atEof, render_atEof, ih]
  | _ => rfl

/-- Names as users write them. -/
theorem isName_of_decide {n : Str} (h : decide (n ≠ [] ∧ ∀ c ∈ n, c ∉ ['`', '|', ',', '(', ')']) = true) : IsName n :=
  (of_decide_eq_true h : n ≠ [] ∧ ∀ c ∈ n, c ∉ ['`', '|', ',', '(', ')'])

/-- Messages with names meet the hypotheses, and read as documented (core/validations.rs:124, 166). -/
example (tree : Tok → Str) :
    (Text.onlyOneOf ["my_bool".toList, "path".toList, "ty".toList]).Own ∧
    (Text.onlyOneOf ["my_bool".toList, "path".toList, "ty".toList]).render tree =
      "only one of `my_bool`, `path`, `ty` is allowed".toList ∧
    (Text.unknownField "c::hepl".toList (some "c::help".toList)).Own ∧
    (Text.unknownField "c::hepl".toList (some "c::help".toList)).render tree =
      "unknown field `c::hepl`, did you mean `c::help`?".toList ∧
    (Text.expectedOneOf [[["a".toList, "b".toList]], [["x".toList], ["y".toList]], []]).Own ∧
    (Text.expectedOneOf [[["a".toList, "b".toList]], [["x".toList], ["y".toList]], []]).render tree =
      "expected one of a|b, (x, y), ()".toList ∧
    (Text.tupleLen 3 12).render tree = "Expected tuple of length 3, got 12".toList := by
  refine ⟨?_, by rw [render_onlyOneOf]; decide, ⟨isName_of_decide (by decide), ?_⟩,
    by rw [render_unknownField]; decide, ?_, by rw [render_expectedOneOf]; decide, by rw [render_tupleLen]; decide⟩
  · intro n hn
    simp only [List.mem_cons, List.not_mem_nil, or_false] at hn
    rcases hn with rfl | rfl | rfl <;> exact isName_of_decide (by decide)
  · rintro n ⟨⟩
    exact isName_of_decide (by decide)
  · intro k hk names hn
    simp only [List.mem_cons, List.not_mem_nil, or_false] at hk
    rcases hk with rfl | rfl | rfl <;> simp only [List.mem_cons, List.not_mem_nil, or_false] at hn
    · subst hn
      refine ⟨by simp, fun n hn => ?_⟩
      simp only [List.mem_cons, List.not_mem_nil, or_false] at hn
      rcases hn with rfl | rfl <;> exact isName_of_decide (by decide)
    · rcases hn with rfl | rfl <;> refine ⟨by simp, fun n hn => ?_⟩ <;>
        simp only [List.mem_cons, List.not_mem_nil, or_false] at hn <;> subst hn <;> exact isName_of_decide (by decide)

/-- **C110, limit.**  That the names are free of the characters around names is needed: a name `a, b` reads like two
names. -/
theorem c110_needs_names_violated (tree : Tok → Str) : ∃ t t' : Text, t ≠ t' ∧ t.render tree = t'.render tree ∧
    t = .expectedOneOf [[["a".toList]], [["b".toList]]] ∧ t' = .expectedOneOf [[["a, b".toList]]] :=
  ⟨_, _, by simp, by rw [render_expectedOneOf, render_expectedOneOf]; decide, rfl, rfl⟩

/-- A message quotes the name of what it is about, whatever that is: reading it off is taking what is between the first
two quotes. -/
def firstQuoted (s : Str) : Str := ((s.dropWhile (· != '`')).drop 1).takeWhile (· != '`')

theorem takeWhile_quote {n x : Str} (h : '`' ∉ n) : (n ++ '`' :: x).takeWhile (· != '`') = n := by
  induction n with
  | nil => simp
  | cons c n ih =>
    have hc : c ≠ '`' := fun e => h (by simp [e])
    have hn : '`' ∉ n := fun e => h (by simp [e])
    have hb : (c != '`') = true := by simpa using hc
    simp [hb, ih hn]

/-- **C110.**  The name that a message is about can be read off its text, for repeated, unknown, conflicting and
misplaced items. -/
theorem c110_name_quoted (tree : Tok → Str) {p q : Str} (h : '`' ∉ p) (c : Option Str) :
    firstQuoted ((Text.duplicateAttr p).render tree) = p ∧ firstQuoted ((Text.unknownField p c).render tree) = p ∧
      firstQuoted ((Text.notAllowedWith p q).render tree) = p ∧
      firstQuoted ((Text.onlyOneVariant p q).render tree) = p := by
  rw [render_duplicateAttr, render_unknownField, render_notAllowedWith, render_onlyOneVariant]
  refine ⟨?_, ?_, ?_, ?_⟩ <;> simp [firstQuoted, quoteName, takeWhile_quote h]

/-- The numbers in a text, in decimal notation; `acc` is the number that is being read. -/
def numbersIn : Option Nat → Str → List Nat
  | acc, [] => acc.toList
  | acc, c :: s =>
    if c.isDigit then numbersIn (some (10 * acc.getD 0 + (c.toNat - '0'.toNat))) s else acc.toList ++ numbersIn none s

theorem numbersIn_digits {l : Str} (hl : ∀ c ∈ l, c.isDigit = true) (x : Str) : ∀ a : Nat,
    numbersIn (some a) (l ++ x) = numbersIn (some (Nat.ofDigitChars 10 l a)) x := by
  induction l with
  | nil => intro a; rfl
  | cons c l ih =>
    intro a
    rw [Nat.ofDigitChars_cons]
    simp only [List.cons_append, numbersIn, hl c List.mem_cons_self, if_true, Option.getD_some]
    exact ih (fun c hc => hl c (List.mem_cons_of_mem _ hc)) _

theorem renderNat_digits (n : Nat) : ∀ c ∈ renderNat n, c.isDigit = true := fun _ h =>
  (Bool.eq_false_or_eq_true _).elim id fun hf => absurd h (renderNat_not hf)

/-- A number that ends the text, or that something else than a digit follows. -/
theorem numbersIn_renderNat (n : Nat) (x : Str) : numbersIn none (renderNat n ++ x) = numbersIn (some n) x := by
  have hz : numbersIn none (renderNat n ++ x) = numbersIn (some 0) (renderNat n ++ x) := by
    cases h : renderNat n with
    | nil => exact absurd h (by simp [renderNat])
    | cons c l =>
      have hc := renderNat_digits n c (by rw [h]; exact List.mem_cons_self)
      simp [numbersIn, hc]
  rw [hz, numbersIn_digits (renderNat_digits n)]
  congr 2
  exact Nat.ofDigitChars_toDigits (by decide) (by decide)

theorem numbersIn_words {w : Str} (hw : ∀ c ∈ w, c.isDigit = false) (x : Str) :
    numbersIn none (w ++ x) = numbersIn none x := by
  induction w with
  | nil => rfl
  | cons c w ih =>
    simp only [List.cons_append, numbersIn, hw c List.mem_cons_self, Bool.false_eq_true, if_false, Option.toList_none,
      List.nil_append]
    exact ih fun c hc => hw c (List.mem_cons_of_mem _ hc)

theorem numbersIn_stop {c : Char} {w : Str} (hc : c.isDigit = false) (hw : ∀ c ∈ w, c.isDigit = false) (n : Nat) (x : Str) :
    numbersIn (some n) (c :: w ++ x) = n :: numbersIn none x := by
  simp only [List.cons_append, numbersIn, hc, Bool.false_eq_true, if_false, Option.toList_some, numbersIn_words hw,
    List.nil_append]

/-- **C110.**  The messages about the length of arrays and tuples show the position, the length that is wanted and the
length that was found, in this order and as they are. -/
theorem c110_numbers (tree : Tok → Str) (i n k : Nat) :
    numbersIn none ((Text.arrayLen i n k).render tree) = [i, n, k] ∧
    numbersIn none ((Text.tupleLen n k).render tree) = [n, k] := by
  have last : numbersIn none (renderNat k) = [k] := by
    have := numbersIn_renderNat k []
    rwa [List.append_nil] at this
  have got : ∀ m, numbersIn (some m) (", got ".toList ++ renderNat k) = [m, k] := fun m => by
    rw [show ", got ".toList = ',' :: " got ".toList by decide, numbersIn_stop (by decide) (by decide), last]
  rw [render_arrayLen, render_tupleLen]
  simp only [List.append_assoc]
  constructor
  · rw [numbersIn_words (by decide), numbersIn_renderNat, show " of length ".toList = ' ' :: "of length ".toList by decide,
      numbersIn_stop (by decide) (by decide), numbersIn_renderNat, got]
  · rw [numbersIn_words (by decide), numbersIn_renderNat, got]

/-- The numbers of `Expected array at index 3 of length 10, got 207`. -/
example (tree : Tok → Str) : (Text.arrayLen 3 10 207).render tree = "Expected array at index 3 of length 10, got 207".toList ∧
    numbersIn none "Expected array at index 3 of length 10, got 207".toList = [3, 10, 207] := by
  rw [render_arrayLen]
  decide

end Deluxe
