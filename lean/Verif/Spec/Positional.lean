import Verif.Spec.Items
/-!
# Specification vocabulary: positional items
-/
namespace Deluxe

/-- Reading at most `len` positional items from one stream, starting with number `c`.  Item number `i`
is read by `item i`.  After the last allowed item nothing more is read, not even a comma.  The last
arguments are the number reached, whether reading stopped because all items were read while tokens
were left, and the stream afterwards. -/
inductive PosReads {β : Type} (item : Nat → M Stream β) (len : Nat) :
    Nat → Stream → List (β × Stream × Stream) → Option SynErr → Nat → Bool → Stream → Prop
  | done {c s} : s.toks = [] → PosReads item len c s [] none c false s
  | full {c s} : s.toks ≠ [] → len ≤ c → PosReads item len c s [] none c true s
  | last {c s b s1 rs f c' full s'} : s.toks ≠ [] → c < len → item c s = (.ok b, s1) →
      (s1.toks = [] ∨ c + 1 = len) → PosReads item len (c + 1) s1 rs f c' full s' →
      PosReads item len c s ((b, s, s1) :: rs) f c' full s'
  | more {c s b s1 t rest rs f c' full s'} : s.toks ≠ [] → c + 1 < len → item c s = (.ok b, s1) →
      s1.toks = t :: rest → Comma t →
      PosReads item len (c + 1) { s1 with toks := rest } rs f c' full s' →
      PosReads item len c s ((b, s, s1) :: rs) f c' full s'
  | failItem {c s e s1} : s.toks ≠ [] → c < len → item c s = (.err e, s1) →
      PosReads item len c s [] (some e) c false s1
  | failSep {c s b s1 t rest} : s.toks ≠ [] → c + 1 < len → item c s = (.ok b, s1) →
      s1.toks = t :: rest → ¬ Comma t →
      PosReads item len c s [(b, s, s1)] (some (.new t.span (.expectedPunct [',']))) (c + 1) false s1

/-- Reading positional items from several streams. -/
inductive PosReadsAll {β : Type} (item : Nat → M Stream β) (len : Nat) :
    Nat → List Stream → List (β × Stream × Stream) → Option SynErr → Nat → List Stream → Prop
  | nil {c} : PosReadsAll item len c [] [] none c []
  | next {c s rs1 c1 s1 rest rs2 f c' rest'} : PosReads item len c s rs1 none c1 false s1 →
      PosReadsAll item len c1 rest rs2 f c' rest' →
      PosReadsAll item len c (s :: rest) (rs1 ++ rs2) f c' (s1 :: rest')
  | full {c s rs c1 s1 rest} : PosReads item len c s rs none c1 true s1 →
      PosReadsAll item len c (s :: rest) rs none c1 (s1 :: rest)
  | fail {c s rs e c1 full s1 rest} : PosReads item len c s rs (some e) c1 full s1 →
      PosReadsAll item len c (s :: rest) rs (some e) c1 (s1 :: rest)

/-- The results have the positions `c`, `c + 1`, … -/
def Numbered {β : Type} (c : Nat) (bs : List (Nat × β)) : Prop :=
  bs.map (·.1) = (List.range bs.length).map (c + ·)

end Deluxe
