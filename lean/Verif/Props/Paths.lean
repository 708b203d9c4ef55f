import Verif.Props.Tokens
import Verif.Props.Errors
/-!
# C12, C13, C16, C17, C18, C49, C59: path strings, attribute lists, validations
-/
namespace Deluxe

/-! ## C12 -/

/-- A path segment as it occurs in Rust: a non-empty identifier without colons. -/
def IsIdent (s : Str) : Prop := s ≠ [] ∧ NoColon s

/-- The text `a::b::c` of a non-empty list of identifiers (specification of key strings). -/
def PathText (segs : List Str) (text : Str) : Prop :=
  segs ≠ [] ∧ (∀ s ∈ segs, IsIdent s) ∧ text = (segs.intersperse [':', ':']).flatten

theorem keyString_eq_intersperse (segs : List Str) :
    keyString segs = (segs.intersperse [':', ':']).flatten := by
  fun_induction keyString segs with
  | case1 => rfl
  | case2 s => simp
  | case3 s rest h ih =>
    cases rest with
    | nil => exact absurd rfl h
    | cons r rest => simp [List.intersperse, ih]

theorem keyString_cons (s : Str) (rest : List Str) (h : rest ≠ []) :
    keyString (s :: rest) = s ++ ':' :: ':' :: keyString rest := by
  cases rest with
  | nil => exact absurd rfl h
  | cons r rest => simp [keyString]

theorem keyString_append (a b : List Str) (ha : a ≠ []) (hb : b ≠ []) :
    keyString (a ++ b) = keyString a ++ ':' :: ':' :: keyString b := by
  induction a with
  | nil => exact absurd rfl ha
  | cons x a ih =>
    cases a with
    | nil => simp [keyString, keyString_cons _ _ hb]
    | cons y a =>
      rw [List.cons_append, keyString_cons _ _ (by simp), ih (by simp), keyString_cons x (y :: a) (by simp)]
      simp

theorem keyString_ne_nil (a : List Str) (ha : a ≠ []) (hi : ∀ s ∈ a, IsIdent s) :
    keyString a ≠ [] := by
  cases a with
  | nil => exact absurd rfl ha
  | cons x a =>
    have := (hi x (by simp)).1
    cases a with
    | nil => simpa [keyString]
    | cons y a => simp [keyString]

/-- A key string does not end with a colon. -/
theorem keyString_last (a : List Str) (ha : a ≠ []) (hi : ∀ s ∈ a, IsIdent s) :
    (keyString a).getLast? ≠ some ':' := by
  induction a with
  | nil => exact absurd rfl ha
  | cons x a ih =>
    cases a with
    | nil =>
      intro h
      exact (hi x (by simp)).2 (List.mem_of_getLast? h)
    | cons y a =>
      have := ih (by simp) (fun s hs => hi s (by simp [hs]))
      rw [keyString_cons _ _ (by simp)]
      have hne := keyString_ne_nil (y :: a) (by simp) (fun s hs => hi s (by simp [hs]))
      generalize keyString (y :: a) = k at *
      rw [show x ++ ':' :: ':' :: k = (x ++ [':', ':']) ++ k by simp, List.getLast?_append]
      cases hk : k.getLast? with
      | none => simp at hk; exact absurd hk hne
      | some c => simpa [hk] using this

theorem endsColon2_iff (s : Str) : endsColon2 s = true ↔ ∃ t, s = t ++ [':', ':'] := by
  unfold endsColon2
  rw [List.isSuffixOf_iff_suffix]
  exact ⟨fun ⟨t, h⟩ => ⟨t, h.symm⟩, fun ⟨t, h⟩ => ⟨t, h.symm⟩⟩

theorem endsColon2_keyString (a : List Str) (ha : a ≠ []) (hi : ∀ s ∈ a, IsIdent s) :
    endsColon2 (keyString a) = false := by
  rw [← Bool.not_eq_true, endsColon2_iff]
  rintro ⟨t, h⟩
  apply keyString_last a ha hi
  simp [h]

theorem endsColon2_append (s : Str) : endsColon2 (s ++ [':', ':']) = true :=
  (endsColon2_iff _).2 ⟨s, rfl⟩

theorem stripPrefix_iff (p s r : Str) : stripPrefix p s = some r ↔ s = p ++ r := by
  induction p generalizing s with
  | nil => simp [stripPrefix]
  | cons c p ih =>
    cases s with
    | nil => simp [stripPrefix]
    | cons d s =>
      simp only [stripPrefix]
      split
      · rename_i h; subst h; simp [ih]
      · rename_i h
        simp only [reduceCtorEq, List.cons_append, List.cons.injEq, false_iff, not_and]
        intro h'; exact absurd h'.symm h

/-- Splitting at the first `::` of two equal texts. -/
theorem colon_split (a b c d : Str) (ha : NoColon a) (hb : NoColon b)
    (he : a ++ ':' :: c = b ++ ':' :: d) : a = b ∧ c = d := by
  induction a generalizing b with
  | nil =>
    cases b with
    | nil => simpa using he
    | cons x b => simp at he; exact absurd (List.mem_cons.2 (Or.inl he.1)) hb
  | cons x a ih =>
    cases b with
    | nil => simp at he; exact absurd (List.mem_cons.2 (Or.inl he.1.symm)) ha
    | cons y b =>
      simp only [List.cons_append, List.cons.injEq] at he
      obtain ⟨rfl, rfl⟩ := ih b (fun hm => ha (by simp [hm])) (fun hm => hb (by simp [hm])) he.2
      simp [he.1]

theorem keyString_prefix (p k : List Str) (r : Str) (hp : p ≠ []) (hk : k ≠ [])
    (ip : ∀ s ∈ p, IsIdent s) (ik : ∀ s ∈ k, IsIdent s)
    (h : keyString k = keyString p ++ ':' :: ':' :: r) :
    ∃ rest, rest ≠ [] ∧ k = p ++ rest ∧ r = keyString rest := by
  induction p generalizing k with
  | nil => exact absurd rfl hp
  | cons x p ih =>
    cases k with
    | nil => exact absurd rfl hk
    | cons y k =>
      have hx := (ip x (by simp)).2
      have hy := (ik y (by simp)).2
      cases k with
      | nil =>
        exfalso
        simp only [keyString] at h
        exact hy (by rw [h]; simp)
      | cons z k =>
        rw [keyString_cons y (z :: k) (by simp)] at h
        cases p with
        | nil =>
          rw [show keyString [x] = x from rfl] at h
          obtain ⟨rfl, h'⟩ := colon_split _ _ _ _ hy hx h
          exact ⟨z :: k, by simp, rfl, ((List.cons.inj h').2).symm⟩
        | cons w p =>
          rw [keyString_cons x (w :: p) (by simp)] at h
          simp only [List.append_assoc, List.cons_append] at h
          obtain ⟨rfl, h'⟩ := colon_split _ _ _ _ hy hx h
          have h := (List.cons.inj h').2
          obtain ⟨rest, h1, h2, h3⟩ := ih (z :: k) (by simp) (by simp)
            (fun s hs => ip s (by simp [hs])) (fun s hs => ik s (by simp [hs])) h
          exact ⟨rest, h1, by simp [h2], h3⟩

/-- C12: on path texts, joining concatenates the segments, whether or not the prefix carries its
trailing `::`; `join_prefix` gives the same with exactly one trailing `::`; the empty prefix changes
nothing. -/
theorem c12_join_segments (a b : List Str) (ta tb : Str) (ha : PathText a ta) (hb : PathText b tb) :
    PathText (a ++ b) (joinPath ta tb) ∧
    PathText (a ++ b) (joinPath (ta ++ [':', ':']) tb) ∧
    (∃ t, joinPrefix ta tb = t ++ [':', ':'] ∧ PathText (a ++ b) t) ∧
    (∃ t, joinPrefix (ta ++ [':', ':']) tb = t ++ [':', ':'] ∧ PathText (a ++ b) t) ∧
    joinPath [] tb = tb ∧ joinPrefix [] tb = tb ++ [':', ':'] := by
  obtain ⟨ha1, ha2, rfl⟩ := ha
  obtain ⟨hb1, hb2, rfl⟩ := hb
  simp only [← keyString_eq_intersperse]
  have hne := keyString_ne_nil a ha1 ha2
  have hend := endsColon2_keyString a ha1 ha2
  have hab : PathText (a ++ b) (keyString a ++ ':' :: ':' :: keyString b) := by
    refine ⟨by simp [ha1], ?_, ?_⟩
    · intro s hs
      rcases List.mem_append.1 hs with h | h
      · exact ha2 s h
      · exact hb2 s h
    · rw [← keyString_eq_intersperse, keyString_append a b ha1 hb1]
  refine ⟨?_, ?_, ⟨_, ?_, hab⟩, ⟨_, ?_, hab⟩, rfl, rfl⟩
  · simpa [joinPath, hne, hend] using hab
  · simpa [joinPath, endsColon2_append] using hab
  · simp [joinPrefix, hne, hend]
  · simp [joinPrefix, endsColon2_append]

/-- C12: a joined prefix is a prefix in the sense of segments: stripping it from a key succeeds
exactly on the keys that extend it, and gives the remaining segments. -/
theorem c12_strip_segments (p k : List Str) (tp tk r : Str) (hp : PathText p tp)
    (hk : PathText k tk) :
    stripPrefix (joinPrefix [] tp) tk = some r ↔ ∃ rest, k = p ++ rest ∧ PathText rest r := by
  obtain ⟨hp1, hp2, rfl⟩ := hp
  obtain ⟨hk1, hk2, rfl⟩ := hk
  simp only [← keyString_eq_intersperse, stripPrefix_iff, joinPrefix, List.isEmpty_nil, if_true,
    List.append_assoc, List.cons_append, List.nil_append, PathText]
  constructor
  · intro h
    obtain ⟨rest, h1, h2, h3⟩ := keyString_prefix p k r hp1 hk1 hp2 hk2 h
    exact ⟨rest, h2, h1, fun s hs => hk2 s (by simp [h2, hs]), h3⟩
  · rintro ⟨rest, rfl, h1, h2, rfl⟩
    rw [keyString_append p rest hp1 h1]

/-- C12, all strings: joining never loses anything (it is injective under any fixed prefix), the
prefix of a `join_prefix` can always be stripped from what `join_path` builds with it, and nested
prefixes compose. -/
theorem c12_join_strip (pre p k k' : Str) :
    (joinPath pre k = joinPath pre k' → k = k') ∧
    stripPrefix (joinPrefix pre p) (joinPath (joinPrefix pre p) k) = some k ∧
    joinPath (joinPrefix pre p) k = joinPrefix pre p ++ k ∧
    (p ≠ [] → endsColon2 p = false →
      joinPrefix (joinPrefix pre p) k = joinPrefix pre (joinPath p k)) := by
  have hpre : ∃ t, joinPrefix pre p = t ++ [':', ':'] := by
    unfold joinPrefix; split
    · exact ⟨_, rfl⟩
    · exact ⟨_, rfl⟩
  have hj : joinPath (joinPrefix pre p) k = joinPrefix pre p ++ k := by
    obtain ⟨t, ht⟩ := hpre
    simp [joinPath, ht, endsColon2_append]
  refine ⟨?_, ?_, hj, ?_⟩
  · unfold joinPath
    split
    · exact id
    · split <;> simp
  · rw [stripPrefix_iff, hj]
  · intro hp hpe
    obtain ⟨t, ht⟩ := hpre
    have h1 : joinPrefix (joinPrefix pre p) k = joinPrefix pre p ++ k ++ [':', ':'] := by
      rw [ht]; simp [joinPrefix, endsColon2_append]
    rw [h1]
    unfold joinPrefix
    split <;> simp [joinPath, hp, hpe]

/-- `a::b` under the prefix `x::y`. -/
example : PathText ["a".toList, "b".toList] "a::b".toList ∧
    joinPath "x::y::".toList "a::b".toList = "x::y::a::b".toList ∧
    stripPrefix (joinPrefix [] "x::y".toList) "x::y::a::b".toList = some "a::b".toList ∧
    stripPrefix (joinPrefix [] "x".toList) "xy::a".toList = none := by
  refine ⟨⟨by simp, ?_, by rfl⟩, by rfl, by rfl, by rfl⟩
  intro s hs
  simp at hs
  rcases hs with rfl | rfl <;> simp [IsIdent, NoColon]

/-! ## C13 -/

theorem pathMatchesLoop_spec (segs : List Str) (i : Nat) (ps : List (Str × Bool))
    (hl : i + ps.length = segs.length) :
    pathMatchesLoop segs i ps = some (decide (ps = (segs.drop i).map fun s => (s, false))) := by
  induction ps generalizing i with
  | nil =>
    have : segs.drop i = [] := List.drop_eq_nil_of_le (by simp at hl; omega)
    simp [pathMatchesLoop, this]
  | cons p ps ih =>
    obtain ⟨ident, args⟩ := p
    simp only [List.length_cons] at hl
    have hi : i < segs.length := by omega
    rw [List.drop_eq_getElem_cons hi]
    rw [List.map_cons]
    cases args with
    | true => simp [pathMatchesLoop]
    | false =>
      simp only [pathMatchesLoop, List.getElem?_eq_getElem hi]
      by_cases he : ident = segs[i]
      · simp only [he, ne_eq, not_true_eq_false, Bool.false_eq_true, if_false, ih (i + 1) (by omega),
          List.cons.injEq, true_and]
      · simp [he]

/-- C13: never panics, and true exactly when the path consists of the given names in order, none of
them with generic arguments. -/
theorem c13_path_matches_exact (path : APath) (segs : List Str) :
    ∃ b, pathMatches path segs = some b ∧
      (b = true ↔ path.segs.map (·.1) = segs ∧ ∀ s ∈ path.segs, s.2 = false) := by
  unfold pathMatches
  split
  · rename_i h
    refine ⟨false, rfl, ?_⟩
    simp only [Bool.false_eq_true, false_iff, not_and]
    intro he; exact absurd (by simp [← he]) h
  · rename_i h
    refine ⟨_, pathMatchesLoop_spec segs 0 path.segs (by simpa using h), ?_⟩
    simp only [List.drop_zero, decide_eq_true_eq]
    constructor
    · intro he
      rw [he]
      refine ⟨?_, by simp⟩
      rw [List.map_map]
      exact List.map_id segs
    · rintro ⟨rfl, h2⟩
      rw [List.map_map]
      conv => lhs; rw [← List.map_id path.segs]
      apply List.map_congr_left
      intro x hx
      obtain ⟨a, b⟩ := x
      have : b = false := h2 _ hx
      simp [this]

/-- `serde::rename` matches, `serde::rename<T>` does not. -/
example : pathMatches ⟨false, [("a".toList, false), ("b".toList, false)], 1⟩ ["a".toList, "b".toList]
      = some true ∧
    pathMatches ⟨false, [("a".toList, false), ("b".toList, true)], 1⟩ ["a".toList, "b".toList]
      = some false := ⟨by rfl, by rfl⟩

/-! ## C16 -/

section C16
variable [Env]

/-- `f` is the first of the most similar candidates, above the threshold. -/
def IsClosest (path : Str) (fields : List Str) (f : Str) : Prop :=
  ∃ pre post, fields = pre ++ f :: post ∧ Env.simMin < Env.sim path f ∧
    (∀ g ∈ pre, Env.sim path g < Env.sim path f) ∧ (∀ g ∈ post, Env.sim path g ≤ Env.sim path f)

theorem closestLoop_spec (path : Str) (done fields : List Str) (c : Option (Nat × Str))
    (hn : c = none → ∀ g ∈ done, Env.sim path g ≤ Env.simMin)
    (hs : ∀ v f, c = some (v, f) → v = Env.sim path f ∧ IsClosest path done f) :
    (closestLoop path c fields = none → ∀ g ∈ done ++ fields, Env.sim path g ≤ Env.simMin) ∧
    (∀ v f, closestLoop path c fields = some (v, f) → IsClosest path (done ++ fields) f) := by
  induction fields generalizing done c with
  | nil =>
    simp only [closestLoop, List.append_nil]
    exact ⟨hn, fun v f h => (hs v f h).2⟩
  | cons g rest ih =>
    have key := ih (done ++ [g])
    rw [List.append_assoc, List.singleton_append] at key
    rcases c with _ | ⟨v0, f0⟩
    · have hn := hn rfl
      simp only [closestLoop, and_true]
      by_cases hc : Env.simMin < Env.sim path g
      · rw [if_pos hc]
        apply key _ (by simp)
        intro v f h
        simp only [Option.some.injEq, Prod.mk.injEq] at h
        obtain ⟨rfl, rfl⟩ := h
        refine ⟨rfl, done, [], rfl, hc, ?_, by simp⟩
        intro x hx; have := hn x hx; omega
      · rw [if_neg hc]
        apply key _ _ (by simp)
        intro _ x hx
        rcases List.mem_append.1 hx with hx | hx
        · exact hn x hx
        · simp only [List.mem_singleton] at hx; subst hx; omega
    · obtain ⟨rfl, pre, post, rfl, h1, h2, h3⟩ := hs v0 f0 rfl
      simp only [closestLoop, decide_eq_true_eq]
      by_cases hc : Env.simMin < Env.sim path g ∧ Env.sim path f0 < Env.sim path g
      · rw [if_pos hc]
        apply key _ (by simp)
        intro v f h
        simp only [Option.some.injEq, Prod.mk.injEq] at h
        obtain ⟨rfl, rfl⟩ := h
        refine ⟨rfl, _, [], rfl, hc.1, ?_, by simp⟩
        intro x hx
        rcases List.mem_append.1 hx with hx | hx
        · have := h2 x hx; omega
        · rcases List.mem_cons.1 hx with rfl | hx
          · exact hc.2
          · have := h3 x hx; omega
      · rw [if_neg hc]
        apply key _ (by simp)
        intro v f h
        simp only [Option.some.injEq, Prod.mk.injEq] at h
        obtain ⟨rfl, rfl⟩ := h
        refine ⟨rfl, pre, post ++ [g], by simp, h1, h2, ?_⟩
        intro x hx
        rcases List.mem_append.1 hx with hx | hx
        · exact h3 x hx
        · simp only [List.mem_singleton] at hx; subst hx
          omega

/-- C16: an error is added exactly for a key outside the allowed names; it is one message at the key,
naming the key, with a suggestion exactly when some allowed name is similar enough, and then the
first most similar one. -/
theorem c16_unknown (path : Str) (span : Span) (fields : List Str) (errors : Errors) :
    (path ∈ fields → checkUnknownAttribute path span fields errors = (errors, false)) ∧
    (path ∉ fields → ∃ errors' c, checkUnknownAttribute path span fields errors = (errors', true) ∧
      errors'.toList = errors.toList ++ [⟨span, .unknownField path c⟩] ∧
      (c = none ↔ ∀ g ∈ fields, Env.sim path g ≤ Env.simMin) ∧
      (∀ f, c = some f → IsClosest path fields f)) := by
  constructor
  · intro h; simp [checkUnknownAttribute, h]
  · intro h
    refine ⟨_, (closestLoop path none fields).map (·.2), by
      simp [checkUnknownAttribute, h]; rfl, by simp [unknownError, SynErr.new, SynErr.toList], ?_, ?_⟩
    all_goals have hc := closestLoop_spec path [] fields none (by simp) (by simp)
    all_goals rw [List.nil_append] at hc
    · constructor
      · intro hn; exact hc.1 (by simpa using hn)
      · intro hall
        cases hcl : closestLoop path none fields with
        | none => rfl
        | some c =>
          obtain ⟨pre, post, rfl, h1, _⟩ := hc.2 c.1 c.2 hcl
          have := hall c.2 (by simp); omega
    · intro f hf
      simp only [Option.map_eq_some_iff] at hf
      obtain ⟨⟨v, f'⟩, h1, rfl⟩ := hf
      exact hc.2 v f' h1
end C16

/-- Two candidates above the threshold, the first of the best wins. -/
example : letI : Env := ⟨fun _ _ => none, fun _ f => f.length, 1⟩
    (checkUnknownAttribute "k".toList 7 ["a".toList, "bb".toList, "cc".toList] Errors.new).1.toList =
      [⟨7, .unknownField "k".toList (some "bb".toList)⟩] := rfl

/-! ## C17, C18 -/

/-- What is reported for one attribute: its argument tokens, its name and span. -/
def Attr.entry (a : Attr) : List Tok × Str × Span := (a.body.tokens, a.path.key, a.path.span)

theorem takeLoop_spec (m : APath → Bool) (attrs : List Attr) (index : Nat)
    (tokens : List (List Tok × Str × Span)) (hi : index ≤ attrs.length) :
    takeLoop m attrs index tokens =
      (tokens ++ ((attrs.drop index).filter fun a => m a.path).map Attr.entry,
        attrs.take index ++ (attrs.drop index).filter fun a => !m a.path) := by
  fun_induction takeLoop m attrs index tokens with
  | case1 attrs index tokens h attr hm ih =>
    have hlen : (attrs.eraseIdx index).length = attrs.length - 1 := List.length_eraseIdx_of_lt h
    rw [ih (by omega)]
    have hd : attrs.drop index = attrs[index] :: attrs.drop (index + 1) := List.drop_eq_getElem_cons h
    have he : (attrs.eraseIdx index).drop index = attrs.drop (index + 1) := by
      rw [List.eraseIdx_eq_take_drop_succ]
      rw [List.drop_append]; simp [Nat.le_of_lt h]
    have ht : (attrs.eraseIdx index).take index = attrs.take index := by
      rw [List.eraseIdx_eq_take_drop_succ, List.take_append]
      simp [Nat.le_of_lt h, List.take_take]
    have hm' : m attrs[index].path = true := hm
    rw [he, ht, hd]
    simp only [List.filter_cons, hm', if_true, Bool.not_true, Bool.false_eq_true, if_false,
      List.map_cons, List.append_assoc, List.singleton_append]
    rfl
  | case2 attrs index tokens h attr hm ih =>
    rw [ih (by omega)]
    have hd : attrs.drop index = attrs[index] :: attrs.drop (index + 1) := List.drop_eq_getElem_cons h
    have hm' : m attrs[index].path = false := by simpa [attr] using hm
    rw [hd]
    simp only [hm', List.filter_cons, Bool.false_eq_true, if_false, Bool.not_false, if_true]
    rw [List.take_add_one, List.getElem?_eq_getElem h]
    simp only [Option.toList_some, List.append_assoc, List.singleton_append]
  | case3 attrs index tokens h =>
    have : attrs.drop index = [] := List.drop_eq_nil_of_le (by omega)
    have ht : attrs.take index = attrs := List.take_of_length_le (by omega)
    simp [this, ht]

/-- C17: extraction yields the entries of the matching attributes in order, and leaves exactly the
others, in order; a second extraction yields nothing and changes nothing. -/
theorem c17_take_partition (m : APath → Bool) (attrs : List Attr) :
    (takeTokens m attrs).1 = (attrs.filter fun a => m a.path).map Attr.entry ∧
    (takeTokens m attrs).2 = attrs.filter (fun a => !m a.path) ∧
    takeTokens m (takeTokens m attrs).2 = ([], (takeTokens m attrs).2) := by
  have h : ∀ l, takeTokens m l = ((l.filter fun a => m a.path).map Attr.entry,
      l.filter fun a => !m a.path) := by
    intro l; unfold takeTokens; simpa using takeLoop_spec m l 0 [] (by simp)
  refine ⟨by rw [h], by rw [h], ?_⟩
  rw [h attrs]
  simp only
  rw [h]
  simp

/-- C18: reading the attributes gives the same entries as extracting them. -/
theorem c18_ref_eq_take (m : APath → Bool) (attrs : List Attr) :
    refTokens m attrs = (takeTokens m attrs).1 := by
  rw [(c17_take_partition m attrs).1]
  induction attrs with
  | nil => rfl
  | cons a attrs ih =>
    simp only [refTokens, List.filterMap_cons] at ih ⊢
    cases h : m a.path <;> simp [h, ih, Attr.entry]

/-- Two matching attributes around one that does not match. -/
example :
    let a : Attr := ⟨⟨false, [("x".toList, false)], 1⟩, .list .paren [.ident "k".toList 2]⟩
    let b : Attr := ⟨⟨false, [("doc".toList, false)], 3⟩, .nameValue [.lit (.str []) 4]⟩
    let c : Attr := ⟨⟨false, [("x".toList, false)], 5⟩, .path⟩
    takeTokens (fun p => p.key == "x".toList) [a, b, c] = ([a.entry, c.entry], [b]) := by
  intro a b c
  have h := c17_take_partition (fun p => p.key == "x".toList) [a, b, c]
  exact Prod.ext h.1 h.2.1

/-! ## C49 -/

theorem filterMap_congr' {α β : Type} {f g : α → Option β} {l : List α} (h : ∀ x ∈ l, f x = g x) :
    l.filterMap f = l.filterMap g := by
  induction l with
  | nil => rfl
  | cons a l ih =>
    rw [List.filterMap_cons, List.filterMap_cons, h a (by simp), ih fun x hx => h x (by simp [hx])]

theorem foldl_push_toList {β : Type} (l : List β) (f : β → Option (Span × Text)) (errors : Errors) :
    (l.foldl (fun errs b => match f b with
      | some (sp, t) => errs.push sp t
      | none => errs) errors).toList =
      errors.toList ++ (l.filterMap f).map fun x => ⟨x.1, x.2⟩ := by
  induction l generalizing errors with
  | nil => simp
  | cons b l ih =>
    rw [List.foldl_cons, ih, List.filterMap_cons]
    cases h : f b with
    | none => simp
    | some x => simp

/-- The attributes that are present, with their spans. -/
def presentAttrs (attrs : List (Str × Option Span)) : List (Str × Span) :=
  attrs.filterMap fun a => a.2.map fun sp => (a.1, sp)

/-- C49: `only_one` adds nothing when at most one attribute is present, otherwise one message per
present attribute at its span, naming all candidates with the prefix. -/
theorem c49_only_one (attrs : List (Str × Option Span)) (pre : Str) (errors : Errors) :
    ((presentAttrs attrs).length ≤ 1 → onlyOne attrs pre errors = errors) ∧
    (2 ≤ (presentAttrs attrs).length → (onlyOne attrs pre errors).toList = errors.toList ++
      (presentAttrs attrs).map fun a => ⟨a.2, .onlyOneOf (attrs.map fun b => joinPath pre b.1)⟩) := by
  have hp : attrs.filterMap (·.2) = (presentAttrs attrs).map (·.2) := by
    simp only [presentAttrs, List.map_filterMap]
    apply filterMap_congr'
    rintro ⟨n, o⟩ _; cases o <;> rfl
  unfold onlyOne
  rw [hp]
  constructor
  · intro h
    have : ¬ ((List.map (·.2) (presentAttrs attrs)).take 2).length = 2 := by
      simp only [List.length_take, List.length_map]; omega
    simp only [this, if_false]
  · intro h
    have : ((List.map (·.2) (presentAttrs attrs)).take 2).length = 2 := by
      simp only [List.length_take, List.length_map]; omega
    simp only [this, if_true]
    have := foldl_push_toList ((presentAttrs attrs).map (·.2))
      (fun sp => some (sp, .onlyOneOf (attrs.map fun b => joinPath pre b.1))) errors
    simp only at this
    rw [this, List.filterMap_map, List.map_filterMap]
    exact congrArg _ (List.filterMap_eq_map' (f := fun a : Str × Span => Msg.mk a.2 _) ▸ rfl)

/-- C49: `all_or_none` adds nothing when all or none are present, otherwise one message per present
attribute at its span, naming exactly the absent ones (with the prefix) and itself. -/
theorem c49_all_or_none (attrs : List (Str × Option Span)) (pre : Str) (errors : Errors) :
    (((∀ a ∈ attrs, a.2 = none) ∨ (∀ a ∈ attrs, a.2 ≠ none)) → allOrNone attrs pre errors = errors) ∧
    ((∃ a ∈ attrs, a.2 = none) → (∃ a ∈ attrs, a.2 ≠ none) →
      (allOrNone attrs pre errors).toList = errors.toList ++ (presentAttrs attrs).map fun a =>
        ⟨a.2, .mustAlsoBeSet ((attrs.filter (·.2.isNone)).map fun b => joinPath pre b.1) a.1⟩) := by
  have hcond : ∀ b : Bool, firstIsSome attrs = b →
      (attrs.tail.any (fun a => a.2.isSome != b) = true ↔
        (∃ a ∈ attrs, a.2 = none) ∧ (∃ a ∈ attrs, a.2 ≠ none)) := by
    intro b hb
    cases attrs with
    | nil => simp
    | cons a l =>
      simp only [firstIsSome] at hb
      simp only [List.tail_cons, List.any_eq_true, List.mem_cons, exists_eq_or_imp]
      cases ha : a.2 with
      | none =>
        rw [ha] at hb; simp at hb; subst hb
        simp only [bne_iff_ne, ne_eq, true_or, not_true_eq_false, false_or, true_and]
        constructor
        · rintro ⟨x, hx, h⟩; exact ⟨x, hx, by cases h' : x.2 <;> simp_all⟩
        · rintro ⟨x, hx, h⟩; exact ⟨x, hx, by cases h' : x.2 <;> simp_all⟩
      | some sp =>
        rw [ha] at hb; simp at hb; subst hb
        simp only [bne_iff_ne, ne_eq, reduceCtorEq, false_or, not_false_eq_true, true_or, and_true]
        constructor
        · rintro ⟨x, hx, h⟩; exact ⟨x, hx, by cases h' : x.2 <;> simp_all⟩
        · rintro ⟨x, hx, h⟩; exact ⟨x, hx, by cases h' : x.2 <;> simp_all⟩
  have hc := hcond _ rfl
  unfold allOrNone
  constructor
  · intro h
    have : ¬ ((∃ a ∈ attrs, a.2 = none) ∧ (∃ a ∈ attrs, a.2 ≠ none)) := by
      rintro ⟨⟨a, ha, h1⟩, b, hb, h2⟩
      rcases h with h | h
      · exact h2 (h b hb)
      · exact h a ha h1
    rw [← hc] at this
    rw [if_neg this]
  · intro h1 h2
    have := hc.2 ⟨h1, h2⟩
    rw [if_pos this]
    have hn : attrs.filterMap (fun a => if a.2.isNone then some (joinPath pre a.1) else none) =
        (attrs.filter (·.2.isNone)).map fun b => joinPath pre b.1 := by
      rw [← List.filterMap_eq_map, List.filterMap_filter]
      apply filterMap_congr'
      intro a _; rfl
    rw [hn]
    have hf := foldl_push_toList attrs (fun a => a.2.map fun sp =>
      (sp, Text.mustAlsoBeSet ((attrs.filter (·.2.isNone)).map fun b => joinPath pre b.1) a.1)) errors
    have he : (fun (errs : Errors) (b : Str × Option Span) =>
        match b.2.map fun sp => (sp, Text.mustAlsoBeSet
          ((attrs.filter (·.2.isNone)).map fun b => joinPath pre b.1) b.1) with
        | some (sp, t) => errs.push sp t
        | none => errs) = (fun errs a => match a.2 with
        | some sp => errs.push sp (Text.mustAlsoBeSet
          ((attrs.filter (·.2.isNone)).map fun b => joinPath pre b.1) a.1)
        | none => errs) := by
      funext errs a; cases a.2 <;> rfl
    rw [he] at hf
    refine Eq.trans hf ?_
    congr 1
    simp only [presentAttrs, List.map_filterMap]
    apply filterMap_congr'
    rintro ⟨n, o⟩ _; cases o <;> rfl

/-- Two of three attributes present. -/
example : (allOrNone [("a".toList, some 1), ("b".toList, none), ("c".toList, some 2)] "p".toList
      Errors.new).toList =
      [⟨1, .mustAlsoBeSet ["p::b".toList] "a".toList⟩, ⟨2, .mustAlsoBeSet ["p::b".toList] "c".toList⟩] ∧
    (onlyOne [("a".toList, some 1), ("b".toList, none), ("c".toList, some 2)] [] Errors.new).toList =
      [⟨1, .onlyOneOf ["a".toList, "b".toList, "c".toList]⟩,
        ⟨2, .onlyOneOf ["a".toList, "b".toList, "c".toList]⟩] := ⟨by rfl, by rfl⟩

/-- C49, finding: the documentation says that the prefix is put before the names in the message.  `all_or_none` names
the absent ones with it, and the one that is set without it (core/validations.rs:66 prints `n`, not the joined name). -/
theorem c49_own_prefix_violated : ∃ (attrs : List (Str × Option Span)) (pre n : Str),
    (∃ sp, (n, some sp) ∈ attrs) ∧ joinPath pre n ≠ n ∧
      (allOrNone attrs pre Errors.new).toList = [⟨1, .mustAlsoBeSet [joinPath pre "b".toList] n⟩] :=
  ⟨[("a".toList, some 1), ("b".toList, none)], "p".toList, "a".toList, ⟨1, by simp⟩, by decide, by rfl⟩

/-! ## C59 -/

theorem PathMap.get_remove (m : PathMap) (k k' : Str) :
    (m.remove k).get k' = if k' = k then none else m.get k' := by
  unfold PathMap.remove
  induction m with
  | nil => simp [PathMap.get]
  | cons e m ih =>
    obtain ⟨a, sp⟩ := e
    by_cases ha : a = k
    · subst ha
      simp only [ne_eq, not_true_eq_false, decide_false, List.filter_cons, Bool.false_eq_true, if_false]
      rw [ih]
      by_cases hk : k' = a
      · simp [hk]
      · simp [hk, PathMap.get, Ne.symm hk]
    · simp only [ne_eq, ha, not_false_eq_true, decide_true, List.filter_cons, if_true, PathMap.get]
      by_cases hk : a = k'
      · subst hk; simp [ha]
      · simpa [hk] using ih

theorem PathMap.get_isSome_iff (m : PathMap) (k : Str) :
    (m.get k).isSome = true ↔ ∃ sp, (k, sp) ∈ m := by
  induction m with
  | nil => simp [PathMap.get]
  | cons e m ih =>
    obtain ⟨a, sp⟩ := e
    simp only [PathMap.get]
    split
    · rename_i h; subst h; simp
    · rename_i h; simp [ih, Ne.symm h]

/-- C59: `has_paths` holds exactly when every key has one of its names in the map. -/
theorem c59_has_paths (paths : PathMap) (keys : List (List Str)) :
    hasPaths paths keys = true ↔ ∀ ks ∈ keys, ∃ n ∈ ks, ∃ sp, (n, sp) ∈ paths := by
  simp [hasPaths, PathMap.contains, PathMap.get_isSome_iff]

theorem removeAll_get (names : List Str) (pre : Str) (m : PathMap) (k : Str) :
    (names.foldl (fun m path => PathMap.remove m (joinPath pre path)) m).get k =
      if k ∈ names.map (joinPath pre) then none else m.get k := by
  induction names generalizing m with
  | nil => simp
  | cons n names ih =>
    rw [List.foldl_cons, ih, PathMap.get_remove]
    by_cases h1 : k = joinPath pre n <;>
      by_cases h2 : k ∈ names.map (joinPath pre) <;> simp [h1, h2]

/-- C59: `remove_paths` removes exactly the prefixed names. -/
theorem c59_remove_paths (paths : PathMap) (keys : List (Str × List Str)) (k : Str) :
    ((∃ pk ∈ keys, ∃ n ∈ pk.2, k = joinPath pk.1 n) → (removePaths paths keys).get k = none) ∧
    ((¬ ∃ pk ∈ keys, ∃ n ∈ pk.2, k = joinPath pk.1 n) →
      (removePaths paths keys).get k = paths.get k) := by
  unfold removePaths
  have main : ∀ m : PathMap, (keys.foldl (fun m pk =>
      pk.2.foldl (fun m path => PathMap.remove m (joinPath pk.1 path)) m) m).get k =
      if ∃ pk ∈ keys, ∃ n ∈ pk.2, k = joinPath pk.1 n then none else m.get k := by
    induction keys with
    | nil => simp
    | cons pk keys ih =>
      intro m
      rw [List.foldl_cons, ih, removeAll_get]
      have he : k ∈ pk.2.map (joinPath pk.1) ↔ ∃ n ∈ pk.2, k = joinPath pk.1 n := by
        simp [List.mem_map, eq_comm]
      by_cases h1 : ∃ n ∈ pk.2, k = joinPath pk.1 n <;>
        by_cases h2 : ∃ pk ∈ keys, ∃ n ∈ pk.2, k = joinPath pk.1 n <;>
          simp only [List.mem_cons, exists_eq_or_imp, he, h1, h2, true_or, or_true, or_self, if_true,
            if_false]
  rw [main]
  exact ⟨fun h => by rw [if_pos h], fun h => by rw [if_neg h]⟩

/-- C59: `disallow_paths` reports exactly the prefixed names that are present, in order, at the span
of the key. -/
theorem c59_disallow_paths (paths : PathMap) (keys : List (Str × List Str)) (cur : Str)
    (errors : Errors) :
    (disallowPaths paths keys cur errors).toList = errors.toList ++
      (keys.flatMap fun pk => pk.2.map (joinPath pk.1)).filterMap fun name =>
        (paths.get name).map fun sp => ⟨sp, .notAllowedWith name cur⟩ := by
  unfold disallowPaths
  induction keys generalizing errors with
  | nil => simp
  | cons pk keys ih =>
    rw [List.foldl_cons, ih]
    have hf := foldl_push_toList pk.2 (fun path => (paths.get (joinPath pk.1 path)).map fun sp =>
      (sp, Text.notAllowedWith (joinPath pk.1 path) cur)) errors
    have he : (fun (errs : Errors) (b : Str) =>
        match (paths.get (joinPath pk.1 b)).map fun sp =>
          (sp, Text.notAllowedWith (joinPath pk.1 b) cur) with
        | some (sp, t) => errs.push sp t
        | none => errs) = (fun errs path => match paths.get (joinPath pk.1 path) with
        | some span => errs.push span (.notAllowedWith (joinPath pk.1 path) cur)
        | none => errs) := by
      funext errs b; cases paths.get (joinPath pk.1 b) <;> rfl
    rw [he] at hf
    refine Eq.trans (congrArg (· ++ _) hf) ?_
    rw [List.flatMap_cons, List.filterMap_append, List.append_assoc, List.filterMap_map,
      List.map_filterMap]
    congr 2
    apply filterMap_congr'
    intro b _
    simp only [Function.comp]
    cases paths.get (joinPath pk.1 b) <;> rfl

/-- Two keys, one with an alias. -/
example : hasPaths [("b".toList, 1), ("c".toList, 2)] [["a".toList, "b".toList], ["c".toList]] = true ∧
    (disallowPaths [("p::a".toList, 1)] [("p".toList, ["a".toList, "b".toList])] "V".toList
      Errors.new).toList = [⟨1, .notAllowedWith "p::a".toList "V".toList⟩] ∧
    (removePaths [("p::a".toList, 1), ("a".toList, 2)] [("p".toList, ["a".toList])]) =
      [("a".toList, 2)] := ⟨by rfl, by rfl, by rfl⟩

end Deluxe
