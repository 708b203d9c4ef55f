import Verif.Model.SmallStr
import Verif.Model.FieldStatus
import Verif.Props.Errors
/-!
# C14, C15, C50: `SmallString` and `FieldStatus`
-/
namespace Deluxe

/-! ## C14 -/

/-- The public ways of building a `SmallString`. -/
inductive SmallInit
  | new
  | borrowed (s : Str)
  | string (s : Str)
  | cow (owned : Bool) (s : Str)

/-- The public operations that change one. -/
inductive SmallOp
  | push (c : Char)
  | pushStr (s : Str)
  | writeStr (s : Str)
  | writeChar (c : Char)
  | intoOwned

def SmallInit.small : SmallInit → Option SmallStr
  | .new => some .new
  | .borrowed s => some (.ofBorrowed s)
  | .string s => SmallStr.ofString s
  | .cow owned s => SmallStr.ofCow owned s

/-- core/small_string.rs:215-225 for `write_str`, `write_char`. -/
def SmallOp.small (x : SmallStr) : SmallOp → Option SmallStr
  | .push c => x.push c
  | .pushStr s => x.pushStr s
  | .writeStr s => x.pushStr s
  | .writeChar c => x.push c
  | .intoOwned => some x.intoOwned

/-- The same on a plain string (the specification). -/
def SmallInit.plain : SmallInit → Str
  | .new => []
  | .borrowed s => s
  | .string s => s
  | .cow _ s => s

def SmallOp.plain (s : Str) : SmallOp → Str
  | .push c => s ++ [c]
  | .pushStr t => s ++ t
  | .writeStr t => s ++ t
  | .writeChar c => s ++ [c]
  | .intoOwned => s

/-- Build and then apply the operations; `none` is a panic. -/
def runSmall (i : SmallInit) (ops : List SmallOp) : Option SmallStr :=
  ops.foldl (fun x o => x.bind (o.small ·)) i.small

def runPlain (i : SmallInit) (ops : List SmallOp) : Str := ops.foldl SmallOp.plain i.plain

deriving instance DecidableEq for SmallStr

/-- An inline representation is within the capacity of the array. -/
def InlineFits : SmallStr → Prop
  | .inline s => byteLen s ≤ 56
  | _ => True

@[simp] theorem byteLen_append (a b : Str) : byteLen (a ++ b) = byteLen a + byteLen b := by
  simp [byteLen]

theorem pushStr_spec (x : SmallStr) (s : Str) :
    ∃ y, x.pushStr s = some y ∧ y.asStr = x.asStr ++ s ∧ (InlineFits x → InlineFits y) := by
  cases x with
  | heap h => exact ⟨_, rfl, rfl, fun _ => trivial⟩
  | inline i =>
    simp only [SmallStr.pushStr, SmallStr.arrayTryPush]
    by_cases h : byteLen i + byteLen s ≤ maxInline
    · simp only [h, if_true]
      refine ⟨_, rfl, rfl, fun _ => ?_⟩
      simpa [InlineFits, maxInline] using h
    · simp only [h, if_false]
      exact ⟨_, rfl, rfl, fun _ => trivial⟩
  | borrowed b =>
    simp only [SmallStr.pushStr, SmallStr.arrayFrom, SmallStr.arrayTryPush]
    by_cases h : byteLen b + byteLen s > maxInline
    · simp only [h, if_true]
      exact ⟨_, rfl, rfl, fun _ => trivial⟩
    · have h1 : byteLen b ≤ maxInline := by omega
      have h2 : byteLen b + byteLen s ≤ maxInline := by omega
      simp only [h, if_false, h1, if_true, h2]
      exact ⟨_, rfl, rfl, fun _ => by simpa [InlineFits, maxInline] using h2⟩

theorem init_spec (i : SmallInit) :
    ∃ y, i.small = some y ∧ y.asStr = i.plain ∧ InlineFits y := by
  have hs : ∀ s : Str, ∃ y, SmallStr.ofString s = some y ∧ y.asStr = s ∧ InlineFits y := by
    intro s
    simp only [SmallStr.ofString, SmallStr.arrayFrom]
    by_cases h : byteLen s > maxInline
    · simp only [h, if_true]; exact ⟨_, rfl, rfl, trivial⟩
    · have h1 : byteLen s ≤ maxInline := by omega
      simp only [h, if_false, h1, if_true, Option.map_some]
      exact ⟨_, rfl, rfl, h1⟩
  cases i with
  | new => exact ⟨_, rfl, rfl, trivial⟩
  | borrowed s => exact ⟨_, rfl, rfl, trivial⟩
  | string s => exact hs s
  | cow owned s =>
    cases owned with
    | true => simpa [SmallInit.small, SmallInit.plain, SmallStr.ofCow] using hs s
    | false => exact ⟨_, rfl, rfl, trivial⟩

theorem op_spec (x : SmallStr) (o : SmallOp) :
    ∃ y, o.small x = some y ∧ y.asStr = o.plain x.asStr ∧ (InlineFits x → InlineFits y) := by
  cases o with
  | push c => exact pushStr_spec x [c]
  | pushStr s => exact pushStr_spec x s
  | writeStr s => exact pushStr_spec x s
  | writeChar c => exact pushStr_spec x [c]
  | intoOwned =>
    refine ⟨_, rfl, ?_, ?_⟩
    · cases x with
      | borrowed b =>
        simp only [SmallStr.intoOwned, SmallStr.arrayFrom, SmallOp.plain]
        by_cases h : byteLen b ≤ maxInline <;> simp [h, SmallStr.asStr]
      | _ => rfl
    · cases x with
      | borrowed b =>
        simp only [SmallStr.intoOwned, SmallStr.arrayFrom]
        by_cases h : byteLen b ≤ maxInline
        · simp only [h, if_true]; exact fun _ => h
        · simp [h, InlineFits]
      | _ => exact id

/-- C14: after any construction and any sequence of operations there was no panic, the content is
that of the same operations on a plain string, and an inline representation fits into 56 bytes. -/
theorem c14_smallstring_is_string (i : SmallInit) (ops : List SmallOp) :
    ∃ x, runSmall i ops = some x ∧ x.asStr = runPlain i ops ∧ InlineFits x := by
  have main : ∀ (ops : List SmallOp) (x : SmallStr), InlineFits x →
      ∃ y, ops.foldl (fun x o => x.bind (o.small ·)) (some x) = some y ∧
        y.asStr = ops.foldl SmallOp.plain x.asStr ∧ InlineFits y := by
    intro ops
    induction ops with
    | nil => intro x h; exact ⟨x, rfl, rfl, h⟩
    | cons o ops ih =>
      intro x h
      obtain ⟨y, h1, h2, h3⟩ := op_spec x o
      obtain ⟨z, h4, h5, h6⟩ := ih y (h3 h)
      refine ⟨z, ?_, ?_, h6⟩
      · rw [List.foldl_cons, Option.bind_some, h1]; exact h4
      · rw [List.foldl_cons, ← h2]; exact h5
  obtain ⟨x, h1, h2, h3⟩ := init_spec i
  obtain ⟨y, h4, h5, h6⟩ := main ops x h3
  exact ⟨y, by rw [runSmall, h1]; exact h4, by rw [runPlain, ← h2]; exact h5, h6⟩

/-- A borrowed string that is pushed to becomes inline, and a long one heap allocated. -/
example : runSmall (.borrowed "ab".toList) [.push 'c'] = some (.inline "abc".toList) ∧
    runSmall (.cow false "ab".toList) [.pushStr (List.replicate 56 'x')] =
      some (.heap ("ab".toList ++ List.replicate 56 'x')) := by
  constructor <;> decide +kernel

/-! ## C15 -/

/-- C15: however two `SmallString`s were produced, they compare equal exactly when their contents
do, are ordered as their contents, and hash as a `str` with the same content does. -/
theorem c15_repr_irrelevant (i j : SmallInit) (ops ops' : List SmallOp) (x y : SmallStr)
    (hx : runSmall i ops = some x) (hy : runSmall j ops' = some y) :
    (x.eq y = true ↔ runPlain i ops = runPlain j ops') ∧
    (∀ cmp, x.cmp cmp y = cmp (runPlain i ops) (runPlain j ops')) ∧
    (∀ (H : Type) (h : Str → H → H) (st : H), x.hash h st = h (runPlain i ops) st) ∧
    (x.eq y = true → ∀ (H : Type) (h : Str → H → H) (st : H), x.hash h st = y.hash h st) := by
  obtain ⟨x', hx1, hx2, _⟩ := c14_smallstring_is_string i ops
  obtain ⟨y', hy1, hy2, _⟩ := c14_smallstring_is_string j ops'
  rw [hx] at hx1; rw [hy] at hy1
  cases hx1; cases hy1
  refine ⟨by simp [SmallStr.eq, hx2, hy2], fun cmp => by rw [SmallStr.cmp, hx2, hy2],
    fun H h st => by rw [SmallStr.hash, hx2], fun he H h st => ?_⟩
  simp only [SmallStr.eq, beq_iff_eq] at he
  rw [SmallStr.hash, SmallStr.hash, he]

/-- C15, as a borrowed `str`: a `SmallString` lends its content, compares with a `str` in both
directions as the content does, and is equal to, ordered before or hashed like another one exactly as
the lent strings are, which is what maps rely on when they look up a key by `str`. -/
theorem c15_borrow (i j : SmallInit) (ops ops' : List SmallOp) (x y : SmallStr)
    (hx : runSmall i ops = some x) (hy : runSmall j ops' = some y) :
    x.borrow = runPlain i ops ∧
    (x.eq y = true ↔ x.borrow = runPlain j ops') ∧
    (∀ cmp, x.partialCmp cmp y = some (cmp x.borrow (runPlain j ops'))) ∧
    (∀ (H : Type) (h : Str → H → H) (st : H), x.hash h st = h x.borrow st) ∧
    (∀ s, (x.eqStr s = true ↔ runPlain i ops = s) ∧ SmallStr.strEq s x = x.eqStr s) ∧
    (∀ cmp s, x.partialCmpStr cmp s = some (cmp (runPlain i ops) s) ∧
      SmallStr.strPartialCmp cmp s x = some (cmp s (runPlain i ops))) := by
  obtain ⟨x', hx1, hx2, _⟩ := c14_smallstring_is_string i ops
  obtain ⟨y', hy1, hy2, _⟩ := c14_smallstring_is_string j ops'
  rw [hx] at hx1; rw [hy] at hy1
  cases hx1; cases hy1
  refine ⟨hx2, by simp [SmallStr.eq, SmallStr.borrow, hy2],
    fun cmp => by rw [SmallStr.partialCmp, hy2, SmallStr.borrow], fun _ _ _ => rfl,
    fun s => ⟨by simp [SmallStr.eqStr, hx2], ?_⟩, fun cmp s => ⟨?_, ?_⟩⟩
  · rw [Bool.eq_iff_iff]
    simp only [SmallStr.eqStr, SmallStr.strEq, beq_iff_eq]
    exact ⟨Eq.symm, Eq.symm⟩
  · rw [SmallStr.partialCmpStr, hx2]
  · rw [SmallStr.strPartialCmp, hx2]

/-- C15, printed: `Debug` and `Display` print what a `str` with the same content does, so equal strings
are printed alike, and the default is the empty string. -/
theorem c15_printed (i : SmallInit) (ops : List SmallOp) (x : SmallStr)
    (hx : runSmall i ops = some x) {F : Type} (strFmt : Str → F → F) (f : F) :
    x.fmt strFmt f = strFmt (runPlain i ops) f ∧ SmallStr.default.asStr = [] := by
  obtain ⟨x', hx1, hx2, _⟩ := c14_smallstring_is_string i ops
  rw [hx] at hx1
  cases hx1
  refine ⟨?_, rfl⟩
  rw [← hx2]
  cases x <;> rfl

/-- An inline and a borrowed string with the same content. -/
example : ∃ x y, runSmall .new [.pushStr "key".toList] = some x ∧
    runSmall (.borrowed "key".toList) [] = some y ∧ x.eq y = true :=
  ⟨_, _, rfl, rfl, by rfl⟩

/-! ## C50 -/

section C50
variable {α β : Type}

/-- C50, never loses a value and never forgets a parse error: `or`/`or_else` change only `None`. -/
theorem c50_or (x y : FieldStatus α) :
    (∀ v, x = .some v → x.or y = .some v) ∧ (x = .parseError → x.or y = .parseError) ∧
    (x = .none → x.or y = y) ∧ x.orElse (fun _ => y) = x.or y := by
  cases x <;> simp [FieldStatus.or, FieldStatus.orElse]

/-- C50: `map`, `and`, `and_then`, `flatten` act on a value only; `None` and a parse error are kept. -/
theorem c50_map (f : α → β) (g : α → FieldStatus β) (y : FieldStatus β) (x : FieldStatus α) :
    (∀ v, x = .some v → x.map f = .some (f v) ∧ x.andThen g = g v ∧ x.and y = y ∧ x.flatten g = g v) ∧
    (x = .parseError → x.map f = .parseError ∧ x.andThen g = .parseError ∧ x.and y = .parseError ∧
      x.flatten g = .parseError) ∧
    (x = .none → x.map f = .none ∧ x.andThen g = .none ∧ x.and y = .none ∧ x.flatten g = .none) := by
  cases x <;>
    simp [FieldStatus.map, FieldStatus.andThen, FieldStatus.and, FieldStatus.flatten]

/-- C50: exactly one of the three queries holds; unwrapping panics exactly without a value; the
conversions to and from `Option` are inverse on `Option`, and to `Option` forgets only why there is no
value. -/
theorem c50_unwrap (x : FieldStatus α) (o : Option α) (d : α) :
    (x.isSome = true ↔ ∃ v, x = .some v) ∧ (x.isNone = true ↔ x = .none) ∧
    (x.isParseError = true ↔ x = .parseError) ∧
    (x.unwrap = .panic ↔ ¬ ∃ v, x = .some v) ∧ (∀ v, x.unwrap = .ok v ↔ x = .some v) ∧
    x.unwrapOr d = x.intoOption.getD d ∧ x.unwrapOrElse (fun _ => d) = x.unwrapOr d ∧
    (FieldStatus.ofOption o).intoOption = o ∧
    (∀ v, x.intoOption = some v ↔ x = .some v) ∧
    (x ≠ .parseError → FieldStatus.ofOption x.intoOption = x) := by
  cases x <;> cases o <;> simp [FieldStatus.isSome, FieldStatus.isNone, FieldStatus.isParseError,
    FieldStatus.unwrap, FieldStatus.unwrapOr, FieldStatus.unwrapOrElse, FieldStatus.intoOption,
    FieldStatus.ofOption]

/-- C50/C33, one named item: the first occurrence decides the status for good, any further
occurrence adds exactly one "duplicate" message, and every parse failure is recorded and the rest of
the item skipped. -/
theorem c50_parse_named_item (func : M Stream α) (name : Str) (span : Span) (st : FieldStatus α)
    (errors : Errors) (s : Stream) (hp : (func s).1 ≠ .panic) :
    ∃ st' errors' s', st.parseNamedItemWith func name span errors s = (.ok (), (st', errors', s')) ∧
      (st ≠ .none → st' = st) ∧
      (st = .none → ∀ v, (func s).1 = .ok v → st' = .some v) ∧
      (st = .none → ∀ e, (func s).1 = .err e → st' = .parseError) ∧
      (∀ v, (func s).1 = .ok v → s' = (func s).2) ∧
      (∀ e, (func s).1 = .err e → s' = skipMetaItem (func s).2) ∧
      errors'.toList = errors.toList ++
        (match st with | .none => [] | _ => [⟨span, .duplicateAttr name⟩]) ++
        (match (func s).1 with | .err e => e.toList | _ => []) := by
  unfold FieldStatus.parseNamedItemWith
  rcases hf : func s with ⟨r, s'⟩
  rw [hf] at hp
  cases r with
  | panic => exact absurd rfl hp
  | ok v => cases st <;> exact ⟨_, _, _, rfl, by simp [FieldStatus.isNone]⟩
  | err e => cases st <;> exact ⟨_, _, _, rfl, by simp [FieldStatus.isNone]⟩
end C50

/-- A second occurrence with a bad value: the stored value stays, two messages are added. -/
example : (FieldStatus.parseNamedItemWith (parsePunct 'x') "a".toList 5 (.some ()) Errors.new
      ⟨[.ident "q".toList 1, .punct ',' false 2], 9, none⟩) =
    (.ok (), (.some (), ⟨some ⟨⟨5, .duplicateAttr "a".toList⟩, [⟨1, .expectedPunct ['x']⟩]⟩⟩,
      ⟨[.punct ',' false 2], 9, none⟩)) := rfl

end Deluxe
