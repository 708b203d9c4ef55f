import Verif.Model.FieldStatus
import Verif.Model.Paths
/-!
# The parsing traits as dictionaries (core/parse_meta.rs:65-248)
-/
namespace Deluxe

/-- core/parse_meta.rs:60-62 -/
def Mode.toFullSpan [Env] (m : Mode) (inputs : List Stream) : Span :=
  m.namedSpan.getD (inputsSpan inputs)

/-- `ParseMetaItem`, core/parse_meta.rs:76-143. -/
structure Dict (α : Type) where
  parse : Mode → M Stream α
  inline : Mode → M (List Stream) α
  flag : Span → Res α
  named : Str → Span → M Stream α
  missing : Str → Span → Res α

/-- `Delimiter::parse_delimited_meta_item`, core/parse_helpers.rs:267-272; `inline` is
`T::parse_meta_item_inline`. -/
def parseDelimitedMetaItem {α} (dl : Delim) (inline : Mode → M (List Stream) α) (mode : Mode) :
    M Stream α :=
  parseDelimitedWith dl (single (inline mode))

/-- `parse_named_meta_item`, core/parse_helpers.rs:400-409, on the three methods it calls. -/
def parseNamedMetaItem {α} (parse : Mode → M Stream α) (inline : Mode → M (List Stream) α)
    (flag : Span → Res α) (nameSpan : Span) : M Stream α := fun s =>
  if s.peekPunct '=' then
    (do parsePunct '='; parse (.named nameSpan)) s
  else if s.peekDelim .paren then
    parseDelimitedMetaItem .paren inline (.named nameSpan) s
  else (flag nameSpan, s)

/-- An implementation of `ParseMetaItem` that gives `parse_meta_item` and possibly overrides
`parse_meta_item_inline`, `parse_meta_item_flag` and `missing_meta_item`; the defaults are those of
core/parse_meta.rs:104-142.  `parse_meta_item_named` keeps its default. -/
def Dict.mk' {α} (parse : Mode → M Stream α)
    (inline : Mode → M (List Stream) α := parseFirst parse)
    (flag : Span → Res α := fun sp => .err (flagDisallowedError sp))
    (missing : Str → Span → Res α := fun name sp => .err (missingFieldError name sp)) : Dict α where
  parse := parse
  inline := inline
  flag := flag
  named := fun _ sp => parseNamedMetaItem parse inline flag sp
  missing := missing

/-- Outcome-wise conversion of values (used for fields of different types in one structure). -/
def M.map {σ α β : Type} (f : α → β) (m : M σ α) : M σ β := fun s =>
  let (r, s') := m s
  (r.map f, s')

/-- Conversion of a dictionary along a function; embeds a field's type into a common value type.
It is how the model gives all fields of a derived structure one type. -/
def Dict.map {α β} (f : α → β) (d : Dict α) : Dict β where
  parse := fun m => (d.parse m).map f
  inline := fun m => (d.inline m).map f
  flag := fun sp => (d.flag sp).map f
  named := fun n sp => (d.named n sp).map f
  missing := fun n sp => (d.missing n sp).map f

/-- `ParseMetaFlatUnnamed`, core/parse_meta.rs:152-180. -/
structure FlatUnnamed (α : Type) where
  fieldCount : Option Nat
  parse : Mode → Nat → M (List Stream) α

/-- `ParseMetaFlatNamed`, core/parse_meta.rs:189-216. -/
structure FlatNamed (α : Type) where
  acceptsAll : Bool
  fieldNames : List Str
  /-- mode, prefix, validate -/
  parse : Mode → Str → Bool → M (List Stream) α

/-- `ParseMetaAppend`, core/parse_meta.rs:222-233: from the accepted names. -/
abbrev Append (α : Type) := List Str → M (List Stream) α

/-- `ParseMetaRest`, core/parse_meta.rs:239-248: from the excluded names. -/
abbrev Rest (α : Type) := List Str → M (List Stream) α

/-! ## Accumulating loops -/

/-- A value under construction and the collected errors (the locals of the flat parsers). -/
structure Acc (γ : Type) where
  val : γ
  errs : Errors

/-- The loop shape of core/parse_meta.rs:551-562, 638-653, 748-767, 787-810: until the stream is
empty run the step, then a comma unless the stream is empty. -/
def itemLoop {κ : Type} (step : M (κ × Stream) Unit) : Nat → M (κ × Stream) Unit
  | 0 => M.panic
  | n + 1 => fun st =>
    if st.2.isEmpty then (.ok (), st)
    else
      (do
        step
        let st' ← M.get
        if st'.2.isEmpty then pure () else M.onSnd parseComma
        itemLoop step n : M (κ × Stream) Unit) st

/-- `f()?; errors.check()?; Ok(val)`: an error of the loop itself drops the collected ones. -/
def runAcc {γ : Type} (init : γ) (m : M (Acc γ × List Stream) Unit) : M (List Stream) γ :=
  fun inputs =>
    match m (⟨init, Errors.new⟩, inputs) with
    | (.ok (), (acc, l)) => (acc.errs.intoResult acc.val, l)
    | (.err e, (_, l)) => (.err e, l)
    | (.panic, (_, l)) => (.panic, l)

/-- `errors.push_result(f()); errors.check()?; Ok(val)`: an error of the loop is added. -/
def runAccPush {γ : Type} (init : γ) (m : M (Acc γ × List Stream) Unit) : M (List Stream) γ :=
  fun inputs =>
    match m (⟨init, Errors.new⟩, inputs) with
    | (.ok (), (acc, l)) => (acc.errs.intoResult acc.val, l)
    | (.err e, (acc, l)) => ((acc.errs.pushSyn e).intoResult acc.val, l)
    | (.panic, (_, l)) => (.panic, l)

/-- `match errors.push_result(item(input)) { Some(v) => push, None => skip_meta_item(input) }`.
`push` also sees the stream before and after the item. -/
def stepPush {α γ : Type} (item : M Stream α) (push : Acc γ → α → Stream → Stream → Acc γ) :
    M (Acc γ × Stream) Unit := fun (acc, s) =>
  match item s with
  | (.ok a, s') => (.ok (), (push acc a s s', s'))
  | (.err e, s') => (.ok (), ({ acc with errs := acc.errs.pushSyn e }, skipMetaItem s'))
  | (.panic, s') => (.panic, (acc, s'))

end Deluxe
