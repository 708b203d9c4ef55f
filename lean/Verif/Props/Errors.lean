import Verif.Model.Top
/-!
# C01, C02: error accumulation
-/
namespace Deluxe

/-! ## Specification -/

/-- A public mutation of an `Errors`. -/
inductive ErrOp
  | push (sp : Span) (t : Text)
  | pushCallSite (t : Text)
  | pushSyn (e : SynErr)
  | pushResultOk
  | pushResultErr (e : SynErr)
  | extend (es : List SynErr)
  | clear

/-- What the operation does to an `Errors`. -/
def ErrOp.run (e : Errors) : ErrOp → Errors
  | .push sp t => e.push sp t
  | .pushCallSite t => e.pushCallSite t
  | .pushSyn x => e.pushSyn x
  | .pushResultOk => (e.pushResult (.ok ())).1
  | .pushResultErr x => (e.pushResult (α := Unit) (.error x)).1
  | .extend xs => e.extend xs
  | .clear => e.clear

/-- The messages an operation is documented to add. -/
def ErrOp.msgs : ErrOp → List Msg
  | .push sp t => [⟨sp, t⟩]
  | .pushCallSite t => [⟨callSite, t⟩]
  | .pushSyn e => e.toList
  | .pushResultOk => []
  | .pushResultErr e => e.toList
  | .extend es => (es.map SynErr.toList).flatten
  | .clear => []

def ErrOp.isClear : ErrOp → Bool
  | .clear => true
  | _ => false

/-- The operations after the last `clear`. -/
def sinceClear (ops : List ErrOp) : List ErrOp :=
  (ops.reverse.takeWhile fun o => !o.isClear).reverse

/-! ## Lemmas -/

@[simp] theorem SynErr.toList_combine (a b : SynErr) :
    (a.combine b).toList = a.toList ++ b.toList := by
  simp [SynErr.combine, SynErr.toList]

theorem SynErr.toList_extend (a : SynErr) (bs : List SynErr) :
    (a.extend bs).toList = a.toList ++ (bs.map SynErr.toList).flatten := by
  induction bs generalizing a with
  | nil => simp [SynErr.extend]
  | cons b bs ih =>
    have := ih (a.combine b)
    simp only [SynErr.extend, List.foldl_cons] at this ⊢
    rw [this]; simp

@[simp] theorem Errors.toList_new : Errors.new.toList = [] := rfl

@[simp] theorem Errors.toList_pushSyn (e : Errors) (x : SynErr) :
    (e.pushSyn x).toList = e.toList ++ x.toList := by
  rcases e with ⟨_ | s⟩ <;> simp [Errors.pushSyn, Errors.toList]

@[simp] theorem Errors.toList_push (e : Errors) (sp : Span) (t : Text) :
    (e.push sp t).toList = e.toList ++ [⟨sp, t⟩] := by
  simp [Errors.push, SynErr.new, SynErr.toList]

theorem Errors.toList_extend (e : Errors) (xs : List SynErr) :
    (e.extend xs).toList = e.toList ++ (xs.map SynErr.toList).flatten := by
  rcases e with ⟨_ | s⟩
  · cases xs with
    | nil => rfl
    | cons x xs => simp [Errors.extend, Errors.toList, SynErr.toList_extend]
  · simp [Errors.extend, Errors.toList, SynErr.toList_extend]

theorem Errors.inner_eq_none_iff (e : Errors) : e.inner = none ↔ e.toList = [] := by
  rcases e with ⟨_ | s⟩ <;> simp [Errors.toList, SynErr.toList]

theorem ErrOp.run_toList (e : Errors) (o : ErrOp) :
    (o.run e).toList = if o.isClear then [] else e.toList ++ o.msgs := by
  cases o <;> simp [ErrOp.run, ErrOp.msgs, ErrOp.isClear, Errors.pushCallSite, Errors.pushResult,
    Errors.toList_extend]
  · rfl

theorem sinceClear_append (ops : List ErrOp) (o : ErrOp) :
    sinceClear (ops ++ [o]) = if o.isClear then [] else sinceClear ops ++ [o] := by
  unfold sinceClear
  rw [List.reverse_append]
  cases h : o.isClear <;> simp [h]

/-! ## Theorems -/

/-- C01: after any sequence of operations the messages are exactly those pushed since the last
`clear`, in order, and every way of looking at the accumulator agrees with that list. -/
theorem c01_errors_exact (ops : List ErrOp) :
    let e := ops.foldl ErrOp.run Errors.new
    let msgs := (sinceClear ops).flatMap ErrOp.msgs
    e.toList = msgs ∧
    (e.isEmpty = true ↔ msgs = []) ∧
    (∀ (α : Type) (a : α), (msgs = [] → e.intoResult a = .ok a) ∧
      (msgs ≠ [] → ∃ x, e.intoResult a = .err x ∧ x.toList = msgs)) ∧
    ((msgs = [] → e.check = .ok ()) ∧ (msgs ≠ [] → ∃ x, e.check = .err x ∧ x.toList = msgs)) ∧
    ((msgs = [] → e.unwrapErr = .panic) ∧
      (msgs ≠ [] → ∃ x, e.unwrapErr = .ok x ∧ x.toList = msgs)) ∧
    (∀ α : Type, (msgs = [] → e.bail (α := α) = .panic) ∧
      (msgs ≠ [] → ∃ x, e.bail (α := α) = .err x ∧ x.toList = msgs)) := by
  intro e msgs
  have key : e.toList = msgs := by
    show (ops.foldl ErrOp.run Errors.new).toList = (sinceClear ops).flatMap ErrOp.msgs
    clear msgs e
    suffices h : ∀ l : List ErrOp, (l.reverse.foldl ErrOp.run Errors.new).toList =
        (sinceClear l.reverse).flatMap ErrOp.msgs by
      have := h ops.reverse
      rwa [List.reverse_reverse] at this
    intro l
    induction l with
    | nil => rfl
    | cons o l ih =>
      rw [List.reverse_cons, List.foldl_append, List.foldl_cons, List.foldl_nil,
        ErrOp.run_toList, sinceClear_append]
      cases h : o.isClear
      · rw [ih]; simp
      · simp
  refine ⟨key, ?_⟩
  rw [← key]
  rcases e with ⟨_ | s⟩
  · simp [Errors.isEmpty, Errors.toList, Errors.intoResult, Errors.check, Errors.unwrapErr,
      Errors.bail]
  · have : s.toList ≠ [] := by simp [SynErr.toList]
    simp [Errors.isEmpty, Errors.toList, Errors.intoResult, Errors.check, Errors.unwrapErr,
      Errors.bail, this]

/-- `push_result` hands back the value exactly when there was one. -/
theorem c01_push_result_value {α : Type} (e : Errors) (r : Except SynErr α) :
    (∀ a, r = .ok a → (e.pushResult r).2 = some a ∧ (e.pushResult r).1 = e) ∧
    (∀ x, r = .error x →
      (e.pushResult r).2 = none ∧ (e.pushResult r).1.toList = e.toList ++ x.toList) := by
  constructor <;> intro y h <;> subst h <;> simp [Errors.pushResult]

/-- `From<Error>`, `FromIterator` and the compile-error conversion keep all messages. -/
theorem c01_conversions (x : SynErr) (xs : List SynErr) :
    (Errors.ofErr x).toList = x.toList ∧
    (Errors.ofList xs).toList = (xs.map SynErr.toList).flatten ∧
    (∀ e : Errors, (e.intoCompileErrors).flatten = e.toList) := by
  refine ⟨rfl, ?_, ?_⟩
  · cases xs with
    | nil => rfl
    | cons x xs => simp [Errors.ofList, Errors.toList, SynErr.toList_extend]
  · intro e; rcases e with ⟨_ | s⟩ <;> simp [Errors.intoCompileErrors, Errors.toList]

/-- Non-trivial case: a cleared accumulator that then collects from three operations. -/
example :
    (([.push 1 .duplicateKey, .clear, .pushSyn ⟨⟨2, .expectedPath⟩, [⟨3, .flagDisallowed⟩]⟩,
      .pushResultOk, .extend [.new 4 .expectedToken]] : List ErrOp).foldl
        ErrOp.run Errors.new).toList =
      [⟨2, .expectedPath⟩, ⟨3, .flagDisallowed⟩, ⟨4, .expectedToken⟩] := rfl

/-- C02: an `_optional` wrapper returns the parsed value with the errors untouched, or the default
value with exactly the messages of the failure appended; it never fails itself. -/
theorem c02_optional {α : Type} (d : Dict α) (dflt : α) (attr : List Tok) (errors : Errors) :
    (∀ v, topParse2 d attr = .ok v → parse2Optional d dflt attr errors = (.ok v, errors)) ∧
    (∀ e, topParse2 d attr = .err e →
      ∃ errors', parse2Optional d dflt attr errors = (.ok dflt, errors') ∧
        errors'.toList = errors.toList ++ e.toList) ∧
    (∀ e, (parse2Optional d dflt attr errors).1 ≠ .err e) ∧
    ((parse2Optional d dflt attr errors).1 = .panic ↔ topParse2 d attr = .panic) := by
  unfold parse2Optional orDefault
  cases h : topParse2 d attr <;> simp

/-- C02 for `parse_attributes_optional` and `extract_attributes_optional`; the latter leaves the
object as `extract_attributes` does. -/
theorem c02_attributes_optional {obj α : Type} (pa : ParseAttrs obj α) (ea : ExtractAttrs obj α)
    (dflt : α) (o : obj) (errors : Errors) :
    (∀ v, pa o = .ok v → parseAttributesOptional pa dflt o errors = (.ok v, errors)) ∧
    (∀ e, pa o = .err e →
      ∃ errors', parseAttributesOptional pa dflt o errors = (.ok dflt, errors') ∧
        errors'.toList = errors.toList ++ e.toList) ∧
    (∀ v o', ea o = (.ok v, o') →
      extractAttributesOptional ea dflt o errors = ((.ok v, errors), o')) ∧
    (∀ e o', ea o = (.err e, o') →
      ∃ errors', extractAttributesOptional ea dflt o errors = ((.ok dflt, errors'), o') ∧
        errors'.toList = errors.toList ++ e.toList) := by
  unfold parseAttributesOptional extractAttributesOptional orDefault
  refine ⟨?_, ?_, ?_, ?_⟩ <;> intros <;> simp [*]

end Deluxe
