import Verif.Props.Types
import Verif.Props.Structs
import Verif.Props.Attributes
/-!
# C76: making a field optional keeps the ways to write its value

core/parse_meta.rs:411-442, with the default methods of core/parse_meta.rs:104-132.
-/
namespace Deluxe

section
variable {α : Type}

/-- `o` gives `Some` of what `t` gives, with the same consumption and errors, and never `None`. -/
def SomeOf {σ : Type} (o : M σ (Option α)) (t : M σ α) (s : σ) : Prop :=
  (∀ a s', o s = (.ok (some a), s') ↔ t s = (.ok a, s')) ∧ (∀ e s', o s = (.err e, s') ↔ t s = (.err e, s')) ∧
    ∀ s', o s ≠ (.ok none, s')

theorem someOf_of {σ : Type} {o : M σ (Option α)} {t : M σ α} {s : σ} (h : o s = (t.map some) s) : SomeOf o t s := by
  simp only [M.map] at h
  refine ⟨fun a s' => ?_, fun e s' => ?_, fun s' => ?_⟩ <;> rw [h] <;> rcases t s with ⟨_ | _ | _, _⟩ <;> simp [Res.map]

/-- The inline form of the type is the default one. -/
def Dict.DefaultInline (d : Dict α) : Prop := ∀ m, d.inline m = parseFirst d.parse m

/-- The named form of the type is the default one. -/
def Dict.DefaultNamed (d : Dict α) : Prop := ∀ n sp, d.named n sp = parseNamedMetaItem d.parse d.inline d.flag sp

/-- The tokens do not start with a group in these delimiters. -/
def NotStarting (dl : Delim) (toks : List Tok) : Prop := ∀ inner o c rest, toks ≠ .group dl inner o c :: rest

theorem bindEof_map {β : Type} (f : α → β) (m : M Stream α) (s : Stream) :
    (do let r ← m.map f; parseEof; pure r : M Stream β) s = ((do let r ← m; parseEof; pure r : M Stream α).map f) s := by
  show M.bind _ _ _ = M.map _ (M.bind _ _) _
  simp only [M.map, M.bind]
  rcases m s with ⟨_ | _ | _, s1⟩ <;> simp only [Res.map]
  show M.bind _ _ _ = (_, _)
  simp only [Bind.bind, M.bind]
  rcases parseEof s1 with ⟨_ | _ | _, s2⟩ <;> rfl

theorem parseFirst_map {β : Type} (f : α → β) (p : Mode → M Stream α) (q : Mode → M Stream β) (m : Mode)
    (hq : q m = (p m).map f) (s : Stream) : parseFirst q m [s] = ((parseFirst p m).map f) [s] := by
  simp only [parseFirst, M.map, hq]
  rw [bindEof_map]
  rfl

theorem option_inline (d : Dict α) (sp : Span) (s : Stream) :
    (optionDict d).inline (.named sp) [s] = ((parseFirst d.parse (.named sp)).map some) [s] :=
  parseFirst_map some d.parse (optionDict d).parse (.named sp) rfl s

theorem withContent_map {β : Type} (dl : Delim) (f : α → β) {m : M Stream β} {m' : M Stream α}
    (h : ∀ s, m s = (m'.map f) s) (s : Stream) : withContent dl m s = ((withContent dl m').map f) s := by
  simp only [withContent, M.map]
  cases enter dl s with
  | error e => rfl
  | ok x => simp only [h, M.map]

theorem option_paren (d : Dict α) (name : Str) (sp : Span) (inner : List Tok) (o c : Span) (rest : List Tok) (sc : Span)
    (u : Option Span) :
    (optionDict d).named name sp ⟨.group .paren inner o c :: rest, sc, u⟩ =
      ((parseDelimitedMetaItem .paren (parseFirst d.parse) (.named sp)).map some)
        ⟨.group .paren inner o c :: rest, sc, u⟩ := by
  have h : (optionDict d).named name sp ⟨.group .paren inner o c :: rest, sc, u⟩ =
      parseDelimitedMetaItem .paren (optionDict d).inline (.named sp) ⟨.group .paren inner o c :: rest, sc, u⟩ := by
    have e : (optionDict d).named name sp =
      parseNamedMetaItem (optionDict d).parse (optionDict d).inline (optionDict d).flag sp := rfl
    rw [e]
    simp [parseNamedMetaItem, Stream.peekPunct, Tok.isPunct, Stream.peekDelim]
  rw [h, parseDelimitedMetaItem, parseDelimitedWith]
  refine withContent_map .paren some (fun s => ?_) _
  have : (single ((optionDict d).inline (.named sp))) = (single (parseFirst d.parse (.named sp))).map some := by
    funext s
    simp only [single, option_inline]
    rfl
  rw [this]
  exact bindEof_map some _ s

/-- C76, what holds: `k = v` and `k` alone mean `Some` of what they mean for `T`, whatever `T` is; and so does `k(..)` if
`T` has the default inline form (all types of one token, syn nodes, ..).  Missing from the full claim: `k(..)` where `T`
has an inline form of its own, see below. -/
theorem c76_forms_partial (d : Dict α) (hn : d.DefaultNamed) (name : Str) (sp : Span) (s : Stream)
    (h : StartsParen s → d.DefaultInline) : SomeOf ((optionDict d).named name sp) (d.named name sp) s := by
  apply someOf_of
  by_cases h1 : StartsEq s
  · obtain ⟨ts, sc, u⟩ := s
    obtain ⟨j, esp, rest, rfl⟩ := h1
    rw [M.map, hn, c05_equals]
    exact c05_equals (optionDict d).parse (optionDict d).inline (optionDict d).flag sp j esp rest sc u
  · by_cases h2 : StartsParen s
    · obtain ⟨ts, sc, u⟩ := s
      have hi := h h2
      obtain ⟨inner, o, c, rest, rfl⟩ := h2
      rw [option_paren]
      have e : d.named name sp ⟨.group .paren inner o c :: rest, sc, u⟩ =
          parseDelimitedMetaItem .paren d.inline (.named sp) ⟨.group .paren inner o c :: rest, sc, u⟩ := by
        rw [hn]
        simp [parseNamedMetaItem, Stream.peekPunct, Tok.isPunct, Stream.peekDelim]
      have e' : d.inline = parseFirst d.parse := funext hi
      rw [M.map, M.map, e, e']
    · rw [M.map, hn, c05_flag _ _ _ sp s h1 h2]
      exact c05_flag (optionDict d).parse (optionDict d).inline (optionDict d).flag sp s h1 h2

/-- C76: what `k(..)` means instead: the content of the parentheses is one `T` in the form it has after `=`. -/
theorem c76_paren (d : Dict α) (name : Str) (sp : Span) (inner : List Tok) (o c : Span) (rest : List Tok) (sc : Span)
    (u : Option Span) (a : Option α) (s' : Stream)
    (h : (optionDict d).named name sp ⟨.group .paren inner o c :: rest, sc, u⟩ = (.ok a, s')) :
    ∃ v c', a = some v ∧ d.parse (.named sp) ⟨inner, c, u⟩ = (.ok v, c') ∧ AtEnd c'.toks := by
  obtain ⟨l, h1, -⟩ := (c05_paren (optionDict d).parse (optionDict d).inline (optionDict d).flag sp inner o c rest sc u).1
    a s' h
  rw [option_inline] at h1
  simp only [M.map, parseFirst, Bind.bind, M.bind] at h1
  rcases hp : d.parse (.named sp) ⟨inner, c, u⟩ with ⟨v | e | _, c'⟩ <;> rw [hp] at h1
  · simp only at h1
    rcases he : parseEof c' with ⟨v' | e | _, c''⟩ <;> rw [he] at h1
    · cases h1
      exact ⟨v, c', rfl, rfl, (parseEof_ok he).1⟩
    · cases h1
    · cases h1
  · cases h1
  · cases h1

/-- C76 does not hold for a type that has to be in delimiters when it is a value: `k(..)` is never accepted for an
optional field of that type, unless the content is again in these delimiters. -/
theorem c76_delimited (d : Dict α) (dl : Delim) (f : Mode → M Stream α) (hd : ∀ m, d.parse m = parseDelimitedWith dl (f m))
    (name : Str) (sp : Span) {inner : List Tok} (h : NotStarting dl inner) (o c : Span) (rest : List Tok) (sc : Span)
    (u : Option Span) (a : Option α) (s' : Stream) :
    (optionDict d).named name sp ⟨.group .paren inner o c :: rest, sc, u⟩ ≠ (.ok a, s') := by
  intro h1
  obtain ⟨v, c', -, h2, -⟩ := c76_paren d name sp inner o c rest sc u a s' h1
  rw [hd] at h2
  simp only [parseDelimitedWith, withContent] at h2
  split at h2
  · cases h2
  · rename_i content s2 he
    simp only [enter] at he
    split at he
    · split at he
      · rename_i hdl
        subst hdl
        exact h _ _ _ _ rfl
      · cases he
    · cases he

variable [Env]

/-- C76 does not hold for derived structures with named fields: `k(a = .., b = ..)` is a way to write such a structure
(`c31_struct`), but an error if the field is optional. -/
theorem c76_struct_violated {V : Type} (d : StructDef V) (hs : d.shape = .named) (ht : d.isTransparent = false) (name : Str)
    (sp : Span) {inner : List Tok} (h : NotStarting .brace inner) (o c : Span) (rest : List Tok) (sc : Span)
    (u : Option Span) (a : Option (List V)) (s' : Stream) :
    (optionDict d.dict).named name sp ⟨.group .paren inner o c :: rest, sc, u⟩ ≠ (.ok a, s') := by
  refine c76_delimited d.dict .brace (fun m => single (d.flatNamed.parse m [] (!d.acceptsAll))) (fun m => ?_) name sp h
    o c rest sc u a s'
  unfold StructDef.dict
  rw [ht, hs]
  rfl

omit [Env] in
/-- C76 does not hold for sequences: `k(1, 2)` is a `Vec`, but an error if the field is an optional `Vec`. -/
theorem c76_sequence_violated (d : Dict α) (name : Str) (sp : Span) {inner : List Tok} (h : NotStarting .bracket inner)
    (o c : Span) (rest : List Tok) (sc : Span) (u : Option Span) (a : Option (List α)) (s' : Stream) :
    (optionDict (seqDict d)).named name sp ⟨.group .paren inner o c :: rest, sc, u⟩ ≠ (.ok a, s') :=
  c76_delimited (seqDict d) .bracket (fun _ => single ((seqFlat d).parse .unnamed 0)) (fun _ => rfl) name sp h
    o c rest sc u a s'

/-! ## Examples -/

/-- `k(a, bb = true, c = false)` for `demoDef` of C30 and for an optional one. -/
example : (∃ s', demoDef.dict.named "k".toList 1 ⟨[.group .paren demoToks 2 3], 9, none⟩ =
      (.ok [true, true, true, true], s')) ∧ NotStarting .brace demoToks ∧
    ∃ e s', (optionDict demoDef.dict).named "k".toList 1 ⟨[.group .paren demoToks 2 3], 9, none⟩ = (.err e, s') := by
  refine ⟨⟨_, rfl⟩, ?_, _, _, rfl⟩
  intro inner o c rest h
  cases h

/-- `k(true)` for `Vec<bool>`, and for `Option<bool>`, which has the default forms. -/
example : (∃ s', (seqDict boolDict).named "k".toList 1 ⟨[.group .paren [.ident "true".toList 4] 2 3], 9, none⟩ =
      (.ok [true], s')) ∧
    (∃ e s', (optionDict (seqDict boolDict)).named "k".toList 1
      ⟨[.group .paren [.ident "true".toList 4] 2 3], 9, none⟩ = (.err e, s')) ∧
    boolDict.DefaultInline ∧ boolDict.DefaultNamed ∧
    ∃ s', (optionDict boolDict).named "k".toList 1 ⟨[.group .paren [.ident "true".toList 4] 2 3], 9, none⟩ =
      (.ok (some true), s') :=
  ⟨⟨_, rfl⟩, ⟨_, _, rfl⟩, fun _ => rfl, fun _ _ => rfl, ⟨_, rfl⟩⟩

end
end Deluxe
