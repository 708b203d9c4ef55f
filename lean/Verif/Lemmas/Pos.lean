import Verif.Lemmas.Tuple
import Verif.Lemmas.Reads
import Verif.Spec.Positional
/-!
# The positional loop follows `PosReadsAll`
-/
namespace Deluxe

/-- The outcome of the positional loop. -/
def posOut (f : Option SynErr) (c : Nat) : Res Nat :=
  match f with
  | none => .ok c
  | some e => .err e

/-- The outcome of the positional loop on one stream. -/
def posOut1 (f : Option SynErr) (c : Nat) (full : Bool) : Res (Nat × Bool) :=
  match f with
  | none => .ok (c, full)
  | some e => .err e

/-- Folds the results in with their positions. -/
def foldPos {β κ : Type} (g : Nat → κ → β → κ) : Nat → κ → List β → κ
  | _, k, [] => k
  | c, k, b :: bs => foldPos g (c + 1) (g c k b) bs

theorem foldPos_append {β κ : Type} (g : Nat → κ → β → κ) (c : Nat) (k : κ) (a b : List β) :
    foldPos g c k (a ++ b) = foldPos g (c + a.length) (foldPos g c k a) b := by
  induction a generalizing c k with
  | nil => simp [foldPos]
  | cons x a ih => simp [foldPos, ih, Nat.add_assoc, Nat.add_comm 1]

section
variable {β κ : Type} {item : Nat → M Stream β} {len : Nat}

/-- The callback. -/
def posFunc (item : Nat → M Stream β) (g : Nat → κ → β → κ) : Nat → M (κ × List Stream) Unit :=
  fun i => stepHead (foldStep (item i) (fun k b _ _ => g i k b))

theorem posFunc_cons (g : Nat → κ → β → κ) (i : Nat) (k : κ) (s : Stream) (rest : List Stream) :
    posFunc item g i (k, s :: rest) = match item i s with
      | (.ok b, s1) => (.ok (), (g i k b, s1 :: rest))
      | (.err e, s1) => (.err e, (k, s1 :: rest))
      | (.panic, s1) => (.panic, (k, s1 :: rest)) := by
  simp only [posFunc, stepHead, foldStep]
  cases item i s with
  | mk r s1 => cases r <;> rfl

theorem tupleLoop_rem (func : Nat → M (κ × List Stream) Unit) (rem c : Nat) (k : κ) (s : Stream)
    (rest : List Stream) (hs : s.toks = []) :
    tupleLoop func rem c (k, s :: rest) = (.ok (c, false), (k, s :: rest)) := by
  rw [tupleLoop_cons, if_pos ((isEmpty_iff s).2 hs)]

/-- The count only depends on the number of items read. -/
theorem PosReads.count {c s rs f c' full s'} (h : PosReads item len c s rs f c' full s') :
    c' = c + rs.length := by
  induction h <;> simp_all <;> omega

theorem PosReadsAll.count {c l rs f c' l'} (h : PosReadsAll item len c l rs f c' l') :
    c' = c + rs.length := by
  induction h with
  | nil => simp
  | next h1 _ ih => rw [ih, h1.count]; simp [Nat.add_assoc]
  | full h1 => exact h1.count
  | fail h1 => exact h1.count

theorem PosReads.le {c s rs f c' full s'} (h : PosReads item len c s rs f c' full s')
    (hc : c ≤ len) : c' ≤ len := by
  induction h with
  | done => exact hc
  | full => exact hc
  | last _ h _ _ _ ih => exact ih h
  | more _ h _ _ _ _ ih => exact ih (by omega)
  | failItem => exact hc
  | failSep _ h => omega

theorem PosReadsAll.le {c l rs f c' l'} (h : PosReadsAll item len c l rs f c' l')
    (hc : c ≤ len) : c' ≤ len := by
  induction h with
  | nil => exact hc
  | next h1 _ ih => exact ih (h1.le hc)
  | full h1 => exact h1.le hc
  | fail h1 => exact h1.le hc

theorem PosReads.run {func : Nat → M (κ × List Stream) Unit} {I : Nat → κ → Prop}
    (g : Nat → κ → β → κ)
    (hf : ∀ i k s rest, i < len → I i k → func i (k, s :: rest) = posFunc item g i (k, s :: rest))
    (hI : ∀ i k b, i < len → I i k → I (i + 1) (g i k b)) {c s rs f c' full s'}
    (h : PosReads item len c s rs f c' full s') : c ≤ len → ∀ (k : κ) (rest : List Stream), I c k →
      tupleLoop func (len - c) c (k, s :: rest) =
        (posOut1 f c' full, (foldPos g c k (rs.map (·.1)), s' :: rest)) ∧
      I c' (foldPos g c k (rs.map (·.1))) := by
  induction h with
  | done h0 => intro hc k rest hk; rw [tupleLoop_rem _ _ _ _ _ _ h0]; exact ⟨rfl, hk⟩
  | full hne hlen =>
    intro hc k rest hk
    have : len - _ = 0 := Nat.sub_eq_zero_of_le hlen
    rw [this, tupleLoop_cons, if_neg (by simpa [isEmpty_iff] using hne)]
    exact ⟨rfl, hk⟩
  | @last c s b s1 rs f c' full s' hne hcl hi h1 _ ih =>
    intro hc k rest hk
    obtain ⟨rem, hrem⟩ : ∃ rem, len - c = rem + 1 := ⟨len - c - 1, by omega⟩
    have hrem' : len - (c + 1) = rem := by omega
    rw [hrem, tupleLoop_cons, if_neg (by simpa [isEmpty_iff] using hne)]
    have hb : (s1.isEmpty || rem == 0) = true := by
      rcases h1 with h1 | h1
      · simp [(isEmpty_iff s1).2 h1]
      · have : rem = 0 := by omega
        simp [this]
    simp only [hf _ _ _ _ hcl hk, posFunc_cons, hi, List.headD_cons, hb, ↓reduceIte]
    have := ih hcl (g c k b) rest (hI _ _ _ hcl hk)
    rw [hrem'] at this
    rw [this.1]
    exact ⟨rfl, this.2⟩
  | @more c s b s1 t trest rs f c' full s' hne hcl hi h1 ht _ ih =>
    intro hc k rest hk
    obtain ⟨rem, hrem⟩ : ∃ rem, len - c = rem + 1 := ⟨len - c - 1, by omega⟩
    have hrem' : len - (c + 1) = rem := by omega
    rw [hrem, tupleLoop_cons, if_neg (by simpa [isEmpty_iff] using hne)]
    have hco := parseComma_comma ht trest s1.scope s1.unexp
    rw [← h1] at hco
    have hb : (s1.isEmpty || rem == 0) = false := by
      have : rem ≠ 0 := by omega
      simp [this, Stream.isEmpty, h1]
    simp only [hf _ _ _ _ (Nat.lt_of_succ_lt hcl) hk, posFunc_cons, hi, List.headD_cons, hb, onHead,
      hco, Bool.false_eq_true, ↓reduceIte]
    have := ih (by omega) (g c k b) rest (hI _ _ _ (by omega) hk)
    rw [hrem'] at this
    rw [this.1]
    exact ⟨rfl, this.2⟩
  | @failItem c s e s1 hne hcl hi =>
    intro hc k rest hk
    obtain ⟨rem, hrem⟩ : ∃ rem, len - c = rem + 1 := ⟨len - c - 1, by omega⟩
    rw [hrem, tupleLoop_cons, if_neg (by simpa [isEmpty_iff] using hne)]
    simp only [hf _ _ _ _ hcl hk, posFunc_cons, hi]
    exact ⟨rfl, hk⟩
  | @failSep c s b s1 t trest hne hcl hi h1 ht =>
    intro hc k rest hk
    obtain ⟨rem, hrem⟩ : ∃ rem, len - c = rem + 1 := ⟨len - c - 1, by omega⟩
    rw [hrem, tupleLoop_cons, if_neg (by simpa [isEmpty_iff] using hne)]
    have hco := parseComma_noComma ht trest s1.scope s1.unexp
    rw [← h1] at hco
    have hb : (s1.isEmpty || rem == 0) = false := by
      have : rem ≠ 0 := by omega
      simp [this, Stream.isEmpty, h1]
    simp only [hf _ _ _ _ (Nat.lt_of_succ_lt hcl) hk, posFunc_cons, hi, List.headD_cons, hb, onHead,
      hco, Bool.false_eq_true, ↓reduceIte]
    exact ⟨rfl, hI _ _ _ (by omega) hk⟩

theorem PosReads.exists (hi : ∀ i, Good (item i)) : ∀ (n c : Nat) (s : Stream), len - c = n →
    ∃ rs f c' full s', PosReads item len c s rs f c' full s' := by
  intro n
  induction n with
  | zero =>
    intro c s hc
    by_cases h0 : s.toks = []
    · exact ⟨_, _, _, _, _, .done h0⟩
    · exact ⟨_, _, _, _, _, .full h0 (by omega)⟩
  | succ n ih =>
    intro c s hc
    by_cases h0 : s.toks = []
    · exact ⟨_, _, _, _, _, .done h0⟩
    · cases hit : item c s with
      | mk r s1 =>
        cases r with
        | panic => have := (hi c s).1; rw [hit] at this; exact absurd rfl this
        | err e => exact ⟨_, _, _, _, _, .failItem h0 (by omega) hit⟩
        | ok b =>
          by_cases hl : c + 1 = len
          · obtain ⟨rs, f, c', full, s', h⟩ := ih (c + 1) s1 (by omega)
            exact ⟨_, _, _, _, _, .last h0 (by omega) hit (.inr hl) h⟩
          · cases h1 : s1.toks with
            | nil =>
              obtain ⟨rs, f, c', full, s', h⟩ := ih (c + 1) s1 (by omega)
              exact ⟨_, _, _, _, _, .last h0 (by omega) hit (.inl h1) h⟩
            | cons t rest =>
              by_cases ht : Comma t
              · obtain ⟨rs, f, c', full, s', h⟩ := ih (c + 1) { s1 with toks := rest } (by omega)
                exact ⟨_, _, _, _, _, .more h0 (by omega) hit h1 ht h⟩
              · exact ⟨_, _, _, _, _, .failSep h0 (by omega) hit h1 ht⟩

theorem PosReadsAll.run {func : Nat → M (κ × List Stream) Unit} {I : Nat → κ → Prop}
    (g : Nat → κ → β → κ)
    (hf : ∀ i k s rest, i < len → I i k → func i (k, s :: rest) = posFunc item g i (k, s :: rest))
    (hI : ∀ i k b, i < len → I i k → I (i + 1) (g i k b)) {c l rs f c' l'}
    (h : PosReadsAll item len c l rs f c' l') : c ≤ len → ∀ (k : κ), I c k →
      parseTupleStruct.go func len l.length c (k, l) =
        (posOut f c', (foldPos g c k (rs.map (·.1)), l')) ∧
      I c' (foldPos g c k (rs.map (·.1))) := by
  induction h with
  | nil => intro _ k hk; exact ⟨rfl, hk⟩
  | @next c s rs1 c1 s1 rest rs2 f c' rest' h1 _ ih =>
    intro hc k hk
    have hr := h1.run g hf hI hc k rest hk
    have := ih (h1.le hc) _ hr.2
    simp only [List.length_cons, parseTupleStruct.go]
    rw [hr.1]
    simp only [posOut1]
    rw [this.1]
    have hcount := h1.count
    subst hcount
    simp only [List.map_append, foldPos_append, List.length_map]
    exact ⟨trivial, this.2⟩
  | @full c s rs c1 s1 rest h1 =>
    intro hc k hk
    have hr := h1.run g hf hI hc k rest hk
    simp only [List.length_cons, parseTupleStruct.go]
    rw [hr.1]
    exact ⟨rfl, hr.2⟩
  | @fail c s rs e c1 full s1 rest h1 =>
    intro hc k hk
    have hr := h1.run g hf hI hc k rest hk
    simp only [List.length_cons, parseTupleStruct.go]
    rw [hr.1]
    exact ⟨rfl, hr.2⟩

theorem PosReadsAll.exists (hi : ∀ i, Good (item i)) : ∀ (l : List Stream) (c : Nat),
    ∃ rs f c' l', PosReadsAll item len c l rs f c' l' := by
  intro l
  induction l with
  | nil => intro c; exact ⟨_, _, _, _, .nil⟩
  | cons s l ih =>
    intro c
    obtain ⟨rs, f, c', full, s', h⟩ := PosReads.exists (len := len) hi _ c s rfl
    cases f with
    | some e => exact ⟨_, _, _, _, .fail h⟩
    | none =>
      cases full with
      | true => exact ⟨_, _, _, _, .full h⟩
      | false =>
        obtain ⟨rs2, f2, c2, l2, h2⟩ := ih c'
        exact ⟨_, _, _, _, .next h h2⟩

/-- The positional loop does exactly what the relation says.  The callback reads items as long as the
invariant holds. -/
theorem pos_run {func : Nat → M (κ × List Stream) Unit} (I : Nat → κ → Prop)
    (g : Nat → κ → β → κ)
    (hf : ∀ i k s rest, i < len → I i k → func i (k, s :: rest) = posFunc item g i (k, s :: rest))
    (hI : ∀ i k b, i < len → I i k → I (i + 1) (g i k b)) {k : κ} (hk : I 0 k) {l rs f c l'}
    (h : PosReadsAll item len 0 l rs f c l') :
    parseTupleStruct func len (k, l) = (posOut f c, (foldPos g 0 k (rs.map (·.1)), l')) :=
  (h.run g hf hI (Nat.zero_le _) k hk).1

theorem foldPos_const (g : κ → β → κ) (c : Nat) (k : κ) (bs : List β) :
    foldPos (fun _ => g) c k bs = bs.foldl g k := by
  induction bs generalizing c k with
  | nil => rfl
  | cons b bs ih => exact ih _ _

/-! ## Reads of recovering readers -/

theorem PosReads.map {γ : Type} {item' : Nat → M Stream γ} {f : β → γ}
    (hf : ∀ i s a s', item i s = (.ok a, s') → item' i s = (.ok (f a), s')) {c s rs c' full s'}
    (h : PosReads item len c s rs none c' full s') :
    PosReads item' len c s (rs.map fun x => (f x.1, x.2)) none c' full s' := by
  generalize ho : (none : Option SynErr) = o at h ⊢
  induction h with
  | done h => exact .done h
  | full h1 h2 => exact .full h1 h2
  | last a b c d _ ih => exact .last a b (hf _ _ _ _ c) d (ih ho)
  | more a b c d e _ ih => exact .more a b (hf _ _ _ _ c) d e (ih ho)
  | failItem => cases ho
  | failSep => cases ho

theorem PosReadsAll.map {γ : Type} {item' : Nat → M Stream γ} {f : β → γ}
    (hf : ∀ i s a s', item i s = (.ok a, s') → item' i s = (.ok (f a), s')) {c l rs c' l'}
    (h : PosReadsAll item len c l rs none c' l') :
    PosReadsAll item' len c l (rs.map fun x => (f x.1, x.2)) none c' l' := by
  generalize ho : (none : Option SynErr) = o at h ⊢
  induction h with
  | nil => exact .nil
  | next a _ ih => subst ho; rw [List.map_append]; exact .next (a.map hf) (ih rfl)
  | full a => exact .full (a.map hf)
  | fail => cases ho

theorem PosReads.of_recover {γ : Type} {item' : Nat → M Stream γ} {f : β → γ}
    (hf : ∀ i s a s', item' i s = (.ok (f a), s') → item i s = (.ok a, s')) {c s rs c' full s'}
    (h : PosReads item' len c s rs none c' full s') (hok : ∀ x ∈ rs, ∃ a, x.1 = f a) :
    ∃ rs', PosReads item len c s rs' none c' full s' ∧ rs.map (·.1) = rs'.map (fun x => f x.1) := by
  generalize ho : (none : Option SynErr) = o at h
  induction h with
  | done h => exact ⟨[], .done h, rfl⟩
  | full h1 h2 => exact ⟨[], .full h1 h2, rfl⟩
  | last hne hc hi h0 _ ih =>
    obtain ⟨a, ha⟩ := hok _ (List.mem_cons_self ..)
    simp only at ha; subst ha
    obtain ⟨rs', i1, i2⟩ := ih (fun x hx => hok x (List.mem_cons_of_mem _ hx)) ho
    exact ⟨_, .last hne hc (hf _ _ _ _ hi) h0 i1, by simp [i2]⟩
  | more hne hl hi h1 hc _ ih =>
    obtain ⟨a, ha⟩ := hok _ (List.mem_cons_self ..)
    simp only at ha; subst ha
    obtain ⟨rs', i1, i2⟩ := ih (fun x hx => hok x (List.mem_cons_of_mem _ hx)) ho
    exact ⟨_, .more hne hl (hf _ _ _ _ hi) h1 hc i1, by simp [i2]⟩
  | failItem => cases ho
  | failSep => cases ho

theorem PosReadsAll.of_recover {γ : Type} {item' : Nat → M Stream γ} {f : β → γ}
    (hf : ∀ i s a s', item' i s = (.ok (f a), s') → item i s = (.ok a, s')) {c l rs c' l'}
    (h : PosReadsAll item' len c l rs none c' l') (hok : ∀ x ∈ rs, ∃ a, x.1 = f a) :
    ∃ rs', PosReadsAll item len c l rs' none c' l' ∧ rs.map (·.1) = rs'.map (fun x => f x.1) := by
  generalize ho : (none : Option SynErr) = o at h
  induction h with
  | nil => exact ⟨[], .nil, rfl⟩
  | next a _ ih =>
    obtain ⟨r1, i1, i2⟩ := a.of_recover hf (fun x hx => hok x (List.mem_append_left _ hx))
    obtain ⟨r2, j1, j2⟩ := ih (fun x hx => hok x (List.mem_append_right _ hx)) ho
    subst ho
    exact ⟨r1 ++ r2, .next i1 j1, by simp [i2, j2]⟩
  | full a =>
    obtain ⟨r1, i1, i2⟩ := a.of_recover hf hok
    exact ⟨r1, .full i1, i2⟩
  | fail => cases ho

/-! ## From the tokens of the items -/

/-- Each item reader reads the tokens of its items. -/
def PosSound (item : Nat → M Stream β) (len : Nat)
    (seg : List Tok → List Tok → Span → Nat × β → Prop) : Prop :=
  ∀ v rest sc i b, i < len → Boundary rest → v ++ rest ≠ [] → seg v rest sc (i, b) → ∀ u, ∃ u',
    item i ⟨v ++ rest, sc, u⟩ = (.ok b, ⟨rest, sc, u'⟩)

theorem Numbered.tail {c : Nat} {b : Nat × β} {bs : List (Nat × β)} (h : Numbered c (b :: bs)) :
    b.1 = c ∧ Numbered (c + 1) bs := by
  simp only [Numbered, List.map_cons, List.length_cons, List.range_succ_eq_map, List.cons.injEq,
    Nat.add_zero, List.map_map] at h
  refine ⟨h.1, ?_⟩
  rw [Numbered, h.2]
  refine List.map_congr_left fun x _ => ?_
  simp only [Function.comp]
  omega

theorem Numbered.append {c : Nat} {a b : List (Nat × β)} (h : Numbered c (a ++ b)) :
    Numbered c a ∧ Numbered (c + a.length) b := by
  induction a generalizing c with
  | nil => exact ⟨rfl, by simpa using h⟩
  | cons x a ih =>
    obtain ⟨h1, h2⟩ := h.tail
    obtain ⟨i1, i2⟩ := ih h2
    refine ⟨?_, by simpa [Nat.add_assoc, Nat.add_comm 1] using i2⟩
    simp only [Numbered, List.map_cons, List.length_cons, List.range_succ_eq_map, List.cons.injEq,
      Nat.add_zero, List.map_map]
    refine ⟨h1, ?_⟩
    rw [i1]
    refine List.map_congr_left fun x _ => ?_
    simp only [Function.comp]
    omega

theorem Numbered.cons {c : Nat} {b : β} {bs : List (Nat × β)} (h : Numbered (c + 1) bs) :
    Numbered c ((c, b) :: bs) := by
  simp only [Numbered, List.map_cons, List.length_cons, List.range_succ_eq_map, List.cons.injEq,
    Nat.add_zero, List.map_map, true_and]
  rw [h]
  refine List.map_congr_left fun x _ => ?_
  simp only [Function.comp]
  omega

theorem Numbered.concat {c : Nat} {a b : List (Nat × β)} (ha : Numbered c a)
    (hb : Numbered (c + a.length) b) : Numbered c (a ++ b) := by
  induction a generalizing c with
  | nil => simpa using hb
  | cons x a ih =>
    obtain ⟨h1, h2⟩ := ha.tail
    obtain ⟨i, x⟩ := x
    simp only at h1; subst h1
    exact (ih h2 (by simpa [Nat.add_assoc, Nat.add_comm 1] using hb)).cons

theorem Items.number {seg : List Tok → List Tok → Span → β → Prop} {sc ts bs}
    (h : Items seg sc ts bs) : ∀ c, ∃ bs' : List (Nat × β), bs'.map (·.2) = bs ∧ Numbered c bs' ∧
      Items (fun v rest sc b => seg v rest sc b.2) sc ts bs' := by
  induction h with
  | nil => intro c; exact ⟨[], rfl, rfl, .nil⟩
  | last hne hseg => intro c; exact ⟨[(c, _)], rfl, by simp [Numbered], .last hne hseg⟩
  | cons hc hseg _ ih =>
    intro c
    obtain ⟨bs', h1, h2, h3⟩ := ih (c + 1)
    refine ⟨(c, _) :: bs', by simp [h1], h2.cons, .cons hc hseg h3⟩

theorem ItemsAll.number {seg : List Tok → List Tok → Span → β → Prop} {l bs}
    (h : ItemsAll seg l bs) : ∀ c, ∃ bs' : List (Nat × β), bs'.map (·.2) = bs ∧ Numbered c bs' ∧
      ItemsAll (fun v rest sc b => seg v rest sc b.2) l bs' := by
  induction h with
  | nil => intro c; exact ⟨[], rfl, rfl, .nil⟩
  | cons h1 _ ih =>
    intro c
    obtain ⟨a', a1, a2, a3⟩ := h1.number c
    obtain ⟨b', b1, b2, b3⟩ := ih (c + a'.length)
    exact ⟨a' ++ b', by simp [a1, b1], a2.concat b2, .cons a3 b3⟩

theorem Items.of_nil {γ : Type} {seg : List Tok → List Tok → Span → γ → Prop} {sc bs}
    (h : Items seg sc [] bs) : bs = [] := by
  generalize hz : ([] : List Tok) = z at h
  cases h with
  | nil => rfl
  | last hne => exact absurd hz.symm hne
  | cons => simp at hz

theorem Items.posReads {seg} (hs : PosSound item len seg) {sc ts bs} (h : Items seg sc ts bs) :
    ∀ c, c ≤ len → Numbered c bs → ∀ u, ∃ rs full s',
      PosReads item len c ⟨ts, sc, u⟩ rs none (min len (c + bs.length)) full s' ∧
      rs.map (·.1) = (bs.map (·.2)).take (len - c) ∧
      (c + bs.length ≤ len → AtEnd s'.toks ∧ (full = false → s'.toks = [])) ∧
      (full = true → min len (c + bs.length) = len) ∧
      (c + bs.length > len → full = true) ∧
      (c < len → c + bs.length > len → ¬ AtEnd s'.toks) := by
  induction h with
  | nil =>
    intro c hc _ u
    refine ⟨[], false, ⟨[], sc, u⟩, ?_, by simp, fun _ => ⟨.inl rfl, fun _ => rfl⟩, by simp, ?_,
      by simp; omega⟩
    · have : min len (c + ([] : List (Nat × β)).length) = c := by simp; omega
      rw [this]; exact .done rfl
    · simp; omega
  | @last v b hne hseg =>
    intro c hc hn u
    obtain ⟨h1, _⟩ := hn.tail
    obtain ⟨i, b⟩ := b
    simp only at h1; subst h1
    by_cases hlen : len ≤ i
    · refine ⟨[], true, ⟨v, sc, u⟩, ?_, ?_, ?_, ?_, fun _ => rfl, by omega⟩
      · have : min len (i + [(i, b)].length) = i := by simp; omega
        rw [this]; exact .full hne hlen
      · have : len - i = 0 := by omega
        simp [this]
      · simp only [List.length_cons, List.length_nil]; omega
      · simp only [List.length_cons, List.length_nil]; omega
    · obtain ⟨u', h2⟩ := hs v [] sc i b (by omega) (.inl rfl) (by simpa using hne) hseg u
      rw [List.append_nil] at h2
      refine ⟨[(b, ⟨v, sc, u⟩, ⟨[], sc, u'⟩)], false, ⟨[], sc, u'⟩, ?_, ?_,
        fun _ => ⟨.inl rfl, fun _ => rfl⟩, by simp, ?_, by simp; omega⟩
      · have : min len (i + [(i, b)].length) = i + 1 := by simp; omega
        rw [this]; exact .last hne (by omega) h2 (.inl rfl) (.done rfl)
      · obtain ⟨n, hn⟩ : ∃ n, len - i = n + 1 := ⟨len - i - 1, by omega⟩
        simp [hn]
      · simp only [List.length_cons, List.length_nil]; omega
  | @cons v t rest b bs ht hseg _ ih =>
    intro c hc hn u
    obtain ⟨h1, hn'⟩ := hn.tail
    obtain ⟨i, b⟩ := b
    simp only at h1; subst h1
    by_cases hlen : len ≤ i
    · refine ⟨[], true, ⟨v ++ t :: rest, sc, u⟩, ?_, ?_, ?_, ?_, fun _ => rfl, by omega⟩
      · have : min len (i + ((i, b) :: bs).length) = i := by simp; omega
        rw [this]; exact .full (by simp) hlen
      · have : len - i = 0 := by omega
        simp [this]
      · simp only [List.length_cons]; omega
      · simp only [List.length_cons]; omega
    · obtain ⟨u', h2⟩ := hs v (t :: rest) sc i b (by omega) (.inr ⟨_, _, rfl, ht⟩) (by simp) hseg u
      obtain ⟨n, hnn⟩ : ∃ n, len - i = n + 1 := ⟨len - i - 1, by omega⟩
      by_cases hl : i + 1 = len
      · -- the last allowed item: nothing more is read, not even the comma
        refine ⟨[(b, ⟨v ++ t :: rest, sc, u⟩, ⟨t :: rest, sc, u'⟩)], true,
          ⟨t :: rest, sc, u'⟩, ?_, ?_, ?_, ?_, fun _ => rfl, ?_⟩
        · have : min len (i + ((i, b) :: bs).length) = i + 1 := by simp; omega
          rw [this]; exact .last (by simp) (by omega) h2 (.inr hl) (.full (by simp) (by omega))
        · have : n = 0 := by omega
          simp [hnn, this]
        · intro hle
          have hb0 : bs = [] := by
            simp only [List.length_cons] at hle
            exact List.length_eq_zero_iff.1 (by omega)
          subst hb0
          have hr0 : rest = [] := by
            rename_i hitems
            clear ih
            cases hitems
            rfl
          subst hr0
          exact ⟨.inr ⟨t, ht, rfl⟩, by simp⟩
        · intro _; simp only [List.length_cons]; omega
        · intro _ hgt hend
          rcases hend with h | ⟨c, hc, h⟩
          · cases h
          · simp only [List.cons.injEq] at h
            obtain ⟨rfl, rfl⟩ := h
            rename_i hitems
            have hb := hitems.of_nil
            subst hb
            simp only [List.length_cons, List.length_nil] at hgt
            omega
      · obtain ⟨rs, full, s', i1, i2, i3, i4, i5, i6⟩ := ih (i + 1) (by omega) hn' u'
        have hmin : min len (i + ((i, b) :: bs).length) = min len (i + 1 + bs.length) := by
          simp only [List.length_cons]; omega
        refine ⟨(b, ⟨v ++ t :: rest, sc, u⟩, ⟨t :: rest, sc, u'⟩) :: rs, full, s',
          ?_, ?_, ?_, ?_, ?_, ?_⟩
        · rw [hmin]; exact .more (by simp) (by omega) h2 rfl ht i1
        · have : len - (i + 1) = n := by omega
          rw [this] at i2
          simp [hnn, i2]
        · simp only [List.length_cons]; intro h; exact i3 (by omega)
        · rw [hmin]; exact i4
        · simp only [List.length_cons]; intro h; exact i5 (by omega)
        · simp only [List.length_cons]; intro _ h; exact i6 (by omega) (by omega)

theorem Items.posLength {seg : List Tok → List Tok → Span → Nat × β → Prop} {sc ts bs}
    (h : Items seg sc ts bs) : bs.length ≠ 0 ∨ ts = [] := by
  cases h <;> simp

theorem ItemsAll.posReads {seg} (hs : PosSound item len seg) {l bs} (h : ItemsAll seg l bs) :
    ∀ c, c ≤ len → Numbered c bs → ∃ rs l',
      PosReadsAll item len c l rs none (min len (c + bs.length)) l' ∧
      rs.map (·.1) = (bs.map (·.2)).take (len - c) ∧
      (c + bs.length ≤ len → ∀ s ∈ l', AtEnd s.toks) := by
  induction h with
  | nil =>
    intro c hc _
    refine ⟨[], [], ?_, by simp, by simp⟩
    have : min len (c + ([] : List (Nat × β)).length) = c := by simp; omega
    rw [this]; exact .nil
  | @cons s bs rest bs' h1 h2 ih =>
    intro c hc hn
    obtain ⟨hn1, hn2⟩ := hn.append
    obtain ⟨rs1, full, s1, a1, a2, a3, a4, a5, _⟩ := h1.posReads (len := len) hs c hc hn1 s.unexp
    cases full with
    | true =>
      have h4 := a4 rfl
      refine ⟨rs1, s1 :: rest, ?_, ?_, ?_⟩
      · have : min len (c + (bs ++ bs').length) = min len (c + bs.length) := by
          simp only [List.length_append]; omega
        rw [this]; exact .full a1
      · rw [a2, List.map_append, List.take_append_of_le_length]
        simp only [List.length_map]; omega
      · intro hle x hx
        simp only [List.length_append] at hle
        rcases List.mem_cons.1 hx with rfl | hx
        · exact (a3 (by omega)).1
        · have hb0 : bs' = [] := List.length_eq_zero_iff.1 (by omega)
          subst hb0
          have : ∀ {l : List Stream} {b : List (Nat × β)}, ItemsAll seg l b → b = [] →
              ∀ s ∈ l, s.toks = [] := by
            intro l b h
            induction h with
            | nil => simp
            | cons h1 _ ih =>
              intro hb s hs
              obtain ⟨rfl, rfl⟩ := List.append_eq_nil_iff.1 hb
              rcases List.mem_cons.1 hs with rfl | hs
              · rcases h1.posLength with h | h
                · exact absurd rfl h
                · exact h
              · exact ih rfl s hs
          exact .inl (this h2 rfl x hx)
    | false =>
      have hle : c + bs.length ≤ len := by
        by_cases h : c + bs.length > len
        · exact absurd (a5 h) (by simp)
        · omega
      have hmin : min len (c + bs.length) = c + bs.length := by omega
      rw [hmin] at a1
      obtain ⟨rs2, l2, b1, b2, b3⟩ := ih (c + bs.length) hle hn2
      refine ⟨rs1 ++ rs2, s1 :: l2, ?_, ?_, ?_⟩
      · have : min len (c + (bs ++ bs').length) = min len (c + bs.length + bs'.length) := by
          simp only [List.length_append]; omega
        rw [this]; exact .next a1 b1
      · rw [List.map_append, a2, b2, List.map_append, List.take_append]
        have : len - c - bs.length = len - (c + bs.length) := by omega
        simp [this]
      · intro h x hx
        rcases List.mem_cons.1 hx with rfl | hx
        · exact .inl ((a3 hle).2 rfl)
        · exact b3 (by simp only [List.length_append] at h; omega) x hx

end

end Deluxe
