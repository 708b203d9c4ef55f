import Verif.Props.Tokens
/-!
# Specification vocabulary: comma separated items spread over token streams
-/
namespace Deluxe

/-- Reading one stream.  A failing item, or something other than a comma after an item, stops it. -/
inductive Reads {β : Type} (item : M Stream β) :
    Stream → List (β × Stream × Stream) → Option SynErr → Stream → Prop
  | done {s} : s.toks = [] → Reads item s [] none s
  | last {s b s1} : s.toks ≠ [] → item s = (.ok b, s1) → s1.toks = [] →
      Reads item s [(b, s, s1)] none s1
  | more {s b s1 c rest rs fatal s2} : s.toks ≠ [] → item s = (.ok b, s1) → s1.toks = c :: rest →
      Comma c → Reads item { s1 with toks := rest } rs fatal s2 →
      Reads item s ((b, s, s1) :: rs) fatal s2
  | failItem {s e s1} : s.toks ≠ [] → item s = (.err e, s1) → Reads item s [] (some e) s1
  | failSep {s b s1 t rest} : s.toks ≠ [] → item s = (.ok b, s1) → s1.toks = t :: rest → ¬ Comma t →
      Reads item s [(b, s, s1)] (some (.new t.span (.expectedPunct [',']))) s1

/-- Reading several streams one after the other. -/
inductive ReadsAll {β : Type} (item : M Stream β) :
    List Stream → List (β × Stream × Stream) → Option SynErr → List Stream → Prop
  | nil : ReadsAll item [] [] none []
  | cons {s rs1 s1 rest rs2 fatal rest'} : Reads item s rs1 none s1 →
      ReadsAll item rest rs2 fatal rest' →
      ReadsAll item (s :: rest) (rs1 ++ rs2) fatal (s1 :: rest')
  | fail {s rs e s1 rest} : Reads item s rs (some e) s1 →
      ReadsAll item (s :: rest) rs (some e) (s1 :: rest)

/-- What may follow an item: nothing, or a comma and more. -/
def Boundary (rest : List Tok) : Prop := rest = [] ∨ ∃ c r, rest = c :: r ∧ Comma c

/-- `p` reads the item tokens `v`, when `rest` follows, with the given result: a value, consuming
exactly `v`; or an error, stopping somewhere before the next comma. -/
def ReadsAs {α : Type} (p : M Stream α) (v rest : List Tok) (sc : Span) : Except SynErr α → Prop
  | .ok a => ∀ u, ∃ u', p ⟨v ++ rest, sc, u⟩ = (.ok a, ⟨rest, sc, u'⟩)
  | .error e => ∀ u, ∃ v' u', NoComma v' ∧ p ⟨v ++ rest, sc, u⟩ = (.err e, ⟨v' ++ rest, sc, u'⟩)

/-- The tokens are a comma separated list of items, with or without trailing comma.  `seg v rest sc b`
says that the tokens `v`, followed by `rest` in a stream that ends at `sc`, are an item meaning `b`. -/
inductive Items {β : Type} (seg : List Tok → List Tok → Span → β → Prop) (sc : Span) :
    List Tok → List β → Prop
  | nil : Items seg sc [] []
  | last {v b} : v ≠ [] → seg v [] sc b → Items seg sc v [b]
  | cons {v c rest b bs} : Comma c → seg v (c :: rest) sc b → Items seg sc rest bs →
      Items seg sc (v ++ c :: rest) (b :: bs)

/-- The items are spread, in order, over the streams. -/
inductive ItemsAll {β : Type} (seg : List Tok → List Tok → Span → β → Prop) :
    List Stream → List β → Prop
  | nil : ItemsAll seg [] []
  | cons {s bs rest bs'} : Items seg s.scope s.toks bs → ItemsAll seg rest bs' →
      ItemsAll seg (s :: rest) (bs ++ bs')

/-- Everything in the streams has been read. -/
def AllRead (l : List Stream) : Prop := ∀ s ∈ l, s.toks = []

/-- The values among the results, in order. -/
def okVals {α : Type} : List (Except SynErr α) → List α
  | [] => []
  | .ok a :: xs => a :: okVals xs
  | .error _ :: xs => okVals xs

/-- The messages of the failures, in order. -/
def errMsgs {α : Type} : List (Except SynErr α) → List Msg
  | [] => []
  | .ok _ :: xs => errMsgs xs
  | .error e :: xs => e.toList ++ errMsgs xs

/-- The outcome is a failure with exactly these messages. -/
def FailsWith {α : Type} (r : Res α) (msgs : List Msg) : Prop := ∃ e, r = .err e ∧ e.toList = msgs

/-- The outcome of collecting: the value, or all messages if there are any. -/
def Collects {γ : Type} (r : Res γ) (val : γ) (msgs : List Msg) : Prop :=
  (msgs = [] → r = .ok val) ∧ (msgs ≠ [] → FailsWith r msgs)

/-- The span of a key: its first token joined with its last. -/
def pathSpan [Env] (pt : List Tok) : Span :=
  let first := (pt.map Tok.span).headD callSite
  match (pt.map Tok.span).tail.getLast? with
  | none => first
  | some last => (Env.join first last).getD first

/-- The tokens `v` of an item with a key: `segs` is the key, `sp` its span, `vt` the tokens after. -/
inductive KeyToks [Env] (segs : List Str) : Span → List Tok → List Tok → Prop
  | mk {lead pt vt} : PathToks lead segs pt → ¬ StartsColon2 vt →
      KeyToks segs (pathSpan pt) (pt ++ vt) vt

end Deluxe
