import Verif.Props.LastItem
import Verif.Props.Maps
import Verif.Props.Fixed
/-!
# C118, continued: a comma after the last element of sets, maps, arrays and tuples, in brackets or not
-/
namespace Deluxe

/-! ## Sets -/

theorem Reads.spanItem [Env] {α : Type} {p : M Stream α} {s rs s1} (h : Reads p s rs none s1) :
    ∃ rs', Reads (Deluxe.spanItem p) s rs' none s1 ∧ rs'.map (·.1.1) = rs.map fun x => .ok x.1 := by
  generalize hf : (none : Option SynErr) = f at h
  induction h with
  | done h0 => exact ⟨_, .done h0, rfl⟩
  | last h0 h1 h2 => exact ⟨_, .last h0 (by simp only [Deluxe.spanItem, h1]; rfl) h2, rfl⟩
  | more h0 h1 h2 hc _ ih =>
    obtain ⟨rs', i1, i2⟩ := ih hf
    exact ⟨_, .more h0 (by simp only [Deluxe.spanItem, h1]; rfl) h2 hc i1, by simp [i2]⟩
  | failItem => cases hf
  | failSep => cases hf

/-- A set is accepted exactly if its elements can be read one by one and no two are equal. -/
theorem set_iff [Env] {α : Type} [DecidableEq α] (d : Dict α) (hd : Good (d.parse .unnamed)) (m : Mode) (s : Stream)
    (xs : List α) :
    ((setDict d).inline m [s]).1 = .ok xs ↔
      ∃ rs s1, Reads (d.parse .unnamed) s rs none s1 ∧ xs = rs.map (·.1) ∧ xs.Nodup := by
  constructor
  · intro h
    generalize hl : ((setDict d).inline m [s]).2 = l'
    obtain ⟨rs, h1, h2, h3, _⟩ := c24_only_elements d hd m 0 [s] l' xs (Prod.ext h hl)
    cases h1 with
    | cons h1 h4 => cases h4; exact ⟨_, _, h1, by simpa using h2, h3⟩
  · rintro ⟨rs, s1, h1, rfl, h2⟩
    obtain ⟨rs', h3, h4⟩ := h1.spanItem
    have h5 : ReadsAll (spanItem (d.parse .unnamed)) [s] rs' none [s1] := by
      simpa using ReadsAll.cons h3 .nil
    have h6 := (fold_iff (spanItem_good hd) (fun k b _ _ => setAdd k b) ⟨[], Errors.new⟩ _ [s] [s1] _).2
      ⟨_, none, h5, rfl, rfl⟩
    rw [foldReads_map] at h6
    rw [show stopped none = .ok () from rfl] at h6
    have h7 := runAcc_ok_of h6
    rw [← setStep_eq] at h7
    have hmap : (rs'.map (·.1)).map (·.1) = (rs.map (·.1)).map Except.ok := by
      rw [List.map_map, List.map_map]
      exact h4
    have hok : okVals ((rs'.map (·.1)).map (·.1)) = rs.map (·.1) := by
      rw [hmap, okVals_map]
      simp
    have hm : setMsgs [] (rs'.map (·.1)) = [] := by
      rw [setMsgs_eq_nil]
      refine ⟨fun x hx => ?_, by rw [hok]; exact h2, by simp⟩
      have : x.1 ∈ (rs.map (·.1)).map (Except.ok (ε := SynErr)) := by rw [← hmap]; exact List.mem_map_of_mem hx
      obtain ⟨a, _, ha⟩ := List.mem_map.1 this
      exact ⟨a, ha.symm⟩
    have hf := setAdd_fold (rs'.map (·.1)) ⟨[], Errors.new⟩
    refine (congrArg Prod.fst h7).trans ?_
    have hval := hf.2 hm
    rw [hok] at hval
    exact (intoResult_collects (w := rs.map (·.1)) (msgs := []) (by rw [hf.1, hm]; rfl) fun _ => hval).1 rfl

theorem Reads.comma_iff {α : Type} {p : M Stream α} (h : EndsAlike p) {c : Tok} (hc : Comma c) {ts : List Tok}
    (hn : NoTrailing ts) (sc : Span) (u : Option Span) (P : List α → Prop) :
    (∃ rs s1, Reads p ⟨ts ++ [c], sc, u⟩ rs none s1 ∧ P (rs.map (·.1))) ↔
      ∃ rs s1, Reads p ⟨ts, sc, u⟩ rs none s1 ∧ P (rs.map (·.1)) := by
  constructor
  · rintro ⟨rs, s1, h1, h2⟩
    obtain ⟨rs', s1', h3, h4⟩ := h1.drop_comma h hc ts rfl hn
    exact ⟨rs', s1', h3, h4 ▸ h2⟩
  · rintro ⟨rs, s1, h1, h2⟩
    obtain ⟨rs', s1', h3, h4⟩ := h1.add_comma h hc hn
    exact ⟨rs', s1', h3, h4 ▸ h2⟩

/-- **C118.**  A comma after the last element of a set may be written or left out. -/
theorem c118_set [Env] {α : Type} [DecidableEq α] (d : Dict α) (hd : Good (d.parse .unnamed)) (he : d.EndsAlike) (m : Mode)
    {ts : List Tok} (hn : NoTrailing ts) {c : Tok} (hc : Comma c) (sc : Span) (u : Option Span) (xs : List α) :
    ((setDict d).inline m [⟨ts ++ [c], sc, u⟩]).1 = .ok xs ↔ ((setDict d).inline m [⟨ts, sc, u⟩]).1 = .ok xs := by
  rw [set_iff d hd, set_iff d hd]
  exact Reads.comma_iff (he.parse _) hc hn sc u fun ys => xs = ys ∧ xs.Nodup

/-! ## Maps -/

theorem Reads.entries [Env] {κ ν : Type} {kp : M Stream κ} {keyStr : κ → Str} {vp : Str → Span → M Stream ν} {s rs s1}
    (h : Reads (entryParser kp keyStr vp) s rs none s1) :
    ∃ rs' ys, Reads (entryItem kp keyStr vp [] skipMetaItem) s rs' none s1 ∧ rs'.map (·.1) = ys.map some ∧
      okPairs ys = rs.map (·.1) ∧ ys.map (·.1) = rs.map (·.1.1) ∧ ∀ y ∈ ys, ∃ a, y.2.1 = .ok a := by
  have key : ∀ {s b s1}, entryParser kp keyStr vp s = (.ok b, s1) →
      ∃ sp, entryItem kp keyStr vp [] skipMetaItem s = (.ok (some (b.1, .ok b.2, sp)), s1) := by
    intro s b s1 h
    simp only [entryParser] at h
    split at h
    · rename_i k s0 hk
      simp only [M.map] at h
      rcases hv : vp (keyStr k) s.span s0 with ⟨r, s2⟩
      rw [hv] at h
      cases r with
      | ok v =>
        simp only [Res.map, Prod.mk.injEq, Res.ok.injEq] at h
        obtain ⟨rfl, rfl⟩ := h
        exact ⟨_, by simp only [entryItem, hk, List.not_mem_nil, if_false, hv]; rfl⟩
      | err e => simp [Res.map] at h
      | panic => simp [Res.map] at h
    · simp at h
    · simp at h
  generalize hf : (none : Option SynErr) = f at h
  induction h with
  | done h0 => exact ⟨_, [], .done h0, rfl, rfl, rfl, by simp⟩
  | last h0 h1 h2 =>
    obtain ⟨sp, h3⟩ := key h1
    exact ⟨_, [_], .last h0 h3 h2, rfl, rfl, rfl, by simp⟩
  | more h0 h1 h2 hc _ ih =>
    obtain ⟨sp, h3⟩ := key h1
    obtain ⟨rs', ys, i1, i2, i3, i4, i5⟩ := ih hf
    refine ⟨_, _ :: ys, .more h0 h3 h2 hc i1, by rw [List.map_cons, i2]; rfl, by simp [okPairs, i3], by simp [i4], ?_⟩
    intro y hy
    cases hy with
    | head => exact ⟨_, rfl⟩
    | tail _ hy => exact i5 y hy
  | failItem => cases hf
  | failSep => cases hf

/-- A map is accepted exactly if its entries can be read one by one and no key occurs twice. -/
theorem map_iff [Env] {κ ν : Type} [DecidableEq κ] (kd : Dict κ) (keyStr : κ → Str) (vd : Dict ν)
    (hk : Good (kd.parse .unnamed)) (hv : ∀ n sp, Good (vd.named n sp)) (m : Mode) (s : Stream) (es : List (κ × ν)) :
    ((mapDict kd keyStr vd).inline m [s]).1 = .ok es ↔
      ∃ rs s1, Reads (entryParser (kd.parse .unnamed) keyStr vd.named) s rs none s1 ∧ es = rs.map (·.1) ∧
        (es.map (·.1)).Nodup := by
  constructor
  · intro h
    generalize hl : ((mapDict kd keyStr vd).inline m [s]).2 = l'
    obtain ⟨rs, h1, h2, h3, _⟩ := c25_only_entries kd keyStr vd hk hv m 0 [s] l' es (Prod.ext h hl)
    cases h1 with
    | cons h1 h4 => cases h4; exact ⟨_, _, h1, by simpa using h2, h3⟩
  · rintro ⟨rs, s1, h1, rfl, h2⟩
    obtain ⟨rs', ys, h3, h4, h5, h6, h7⟩ := h1.entries
    have h8 : ReadsAll (entryItem (kd.parse .unnamed) keyStr vd.named [] skipMetaItem) [s] rs' none [s1] := by
      simpa using ReadsAll.cons h3 .nil
    have h9 := (fold_iff (entryItem_good hk hv [] skipMetaItem_adv) (fun k b _ _ => onSome mapAdd k b)
      ⟨[], Errors.new⟩ _ [s] [s1] _).2 ⟨_, none, h8, rfl, rfl⟩
    rw [foldReads_map, h4, foldl_map_some] at h9
    rw [show stopped none = .ok () from rfl] at h9
    have h10 := runAcc_ok_of h9
    rw [← mapStep_eq] at h10
    have hm : mapMsgs [] ys = [] := by
      rw [mapMsgs_eq_nil]
      refine ⟨h7, ?_, by simp⟩
      rw [h6]
      rw [List.map_map] at h2
      exact h2
    have hf := mapAdd_fold ys ⟨[], Errors.new⟩
    refine (congrArg Prod.fst h10).trans ?_
    have hval := hf.2 hm
    rw [h5] at hval
    exact (intoResult_collects (w := rs.map (·.1)) (msgs := []) (by rw [hf.1]; simpa using hm) fun _ => hval).1 rfl

/-- Entries end alike, if keys and values do and a key is never read from nothing. -/
theorem entryParser_ends {κ ν : Type} {kp : M Stream κ} {keyStr : κ → Str} {vp : Str → Span → M Stream ν}
    (hk : EndsAlike kp) (hk0 : ∀ rest sc u x s', Boundary rest → kp ⟨rest, sc, u⟩ ≠ (.ok x, s'))
    (hv : ∀ n sp, EndsAlike (vp n sp)) : EndsAlike (entryParser kp keyStr vp) := by
  intro v sc u hn
  cases v with
  | nil =>
    refine .inr fun rest hb x s' h => ?_
    simp only [entryParser, List.nil_append] at h
    split at h
    · rename_i h1; exact hk0 _ _ _ _ _ hb h1
    · simp at h
    · simp at h
  | cons t v =>
    rcases hk (t :: v) sc u hn with ⟨x, w, u', h1, h2⟩ | h2
    · rcases hv (keyStr x) t.span w sc u' (hn.suffix h1) with ⟨y, w', u'', h3, h4⟩ | h4
      · refine .inl ⟨(x, y), w', u'', h3.trans h1, fun rest hb => ?_⟩
        simp only [entryParser, h2 rest hb]
        have : (⟨t :: v ++ rest, sc, u⟩ : Stream).span = t.span := rfl
        rw [this]
        exact M.map_ok _ (h4 rest hb)
      · refine .inr fun rest hb z s' h => ?_
        simp only [entryParser, h2 rest hb] at h
        have : (⟨t :: v ++ rest, sc, u⟩ : Stream).span = t.span := rfl
        rw [this] at h
        simp only [M.map] at h
        rcases hq : vp (keyStr x) t.span ⟨w ++ rest, sc, u'⟩ with ⟨r, s2⟩
        rw [hq] at h
        cases r with
        | ok y => exact h4 rest hb _ _ hq
        | err e => simp [Res.map] at h
        | panic => simp [Res.map] at h
    · refine .inr fun rest hb z s' h => ?_
      simp only [entryParser] at h
      split at h
      · rename_i hq; exact h2 rest hb _ _ hq
      · simp at h
      · simp at h

/-- **C118.**  A comma after the last entry of a map may be written or left out. -/
theorem c118_map [Env] {κ ν : Type} [DecidableEq κ] (kd : Dict κ) (keyStr : κ → Str) (vd : Dict ν)
    (hk : Good (kd.parse .unnamed)) (hv : ∀ n sp, Good (vd.named n sp)) (hke : kd.EndsAlike) (hve : vd.EndsAlike)
    (hk0 : ∀ rest sc u x s', Boundary rest → kd.parse .unnamed ⟨rest, sc, u⟩ ≠ (.ok x, s')) (m : Mode)
    {ts : List Tok} (hn : NoTrailing ts) {c : Tok} (hc : Comma c) (sc : Span) (u : Option Span) (es : List (κ × ν)) :
    ((mapDict kd keyStr vd).inline m [⟨ts ++ [c], sc, u⟩]).1 = .ok es ↔
      ((mapDict kd keyStr vd).inline m [⟨ts, sc, u⟩]).1 = .ok es := by
  rw [map_iff kd keyStr vd hk hv, map_iff kd keyStr vd hk hv]
  exact Reads.comma_iff (entryParser_ends (hke.parse _) hk0 hve.named) hc hn sc u fun ys => es = ys ∧ (es.map (·.1)).Nodup

/-! ## Arrays and tuples -/

theorem atEnd_snoc {v w rest : List Tok} {c : Tok} (hn : NoTrailing (v ++ rest)) (hw : NoComma w)
    (hc : Comma c) : AtEnd (w ++ (rest ++ [c])) ↔ AtEnd (w ++ rest) := by
  constructor
  · rintro (h | ⟨c', hc', h⟩)
    · simp at h
    · left
      cases w with
      | nil =>
        cases rest with
        | nil => rfl
        | cons t r => simp at h
      | cons t w => simp at h
  · rintro (h | ⟨c', hc', h⟩)
    · right
      simp only [List.append_eq_nil_iff] at h
      obtain ⟨rfl, rfl⟩ := h
      exact ⟨c, hc, rfl⟩
    · obtain ⟨rfl, rfl⟩ := left_comma hw hc' h
      exact absurd rfl (hn.2 v c' hc')

theorem not_atEnd_self {ts : List Tok} (hn : NoTrailing ts) {c : Tok} (_hc : Comma c) :
    AtEnd (ts ++ [c]) ↔ AtEnd ts := by
  constructor
  · rintro (h | ⟨c', hc', h⟩)
    · simp at h
    · cases ts with
      | nil => exact .inl rfl
      | cons t r => simp at h
  · rintro (h | ⟨c', hc', h⟩)
    · exact absurd h hn.1
    · exact absurd h (by simpa using hn.2 [] c' hc')

/-- Nothing more is read once there are enough items. -/
theorem PosReads.enough {β : Type} {item : Nat → M Stream β} {len c : Nat} {s : Stream} {rs f c' full s'}
    (h : PosReads item len c s rs f c' full s') (hle : len ≤ c) : rs = [] ∧ c' = c ∧ s' = s := by
  cases h with
  | done => exact ⟨rfl, rfl, rfl⟩
  | full => exact ⟨rfl, rfl, rfl⟩
  | last _ h => omega
  | more _ h => omega
  | failItem _ h => omega
  | failSep _ h => omega

theorem PosReads.stop {β : Type} {item : Nat → M Stream β} {len c : Nat} (s : Stream) (hle : len ≤ c) :
    ∃ full, PosReads item len c s [] none c full s := by
  by_cases h : s.toks = []
  · exact ⟨_, .done h⟩
  · exact ⟨_, .full h hle⟩

theorem PosReads.nothing {β : Type} {item : Nat → M Stream β} {len c : Nat} {s : Stream} {rs f c' full s'}
    (h : PosReads item len c s rs f c' full s') (h0 : s.toks = []) : rs = [] ∧ c' = c ∧ s' = s := by
  cases h with
  | done => exact ⟨rfl, rfl, rfl⟩
  | full h => exact absurd h0 h
  | last h => exact absurd h0 h
  | more h => exact absurd h0 h
  | failItem h => exact absurd h0 h
  | failSep h => exact absurd h0 h

theorem PosReads.add_comma {α : Type} {p : Nat → M Stream α} (h : ∀ i, EndsAlike (p i)) {c : Tok} (hc : Comma c) {len i : Nat}
    {s : Stream} {rs i' full s1} (hr : PosReads p len i s rs none i' full s1) : NoTrailing s.toks →
      ∃ rs' full' s1', PosReads p len i ⟨s.toks ++ [c], s.scope, s.unexp⟩ rs' none i' full' s1' ∧
        rs'.map (·.1) = rs.map (·.1) ∧ (AtEnd s1'.toks ↔ AtEnd s1.toks) := by
  generalize hf : (none : Option SynErr) = f at hr
  induction hr with
  | done h0 => exact fun hn => absurd h0 hn.1
  | full h0 hle => exact fun hn => ⟨_, _, _, .full (by simp) hle, rfl, not_atEnd_self hn hc⟩
  | @last i s b s1 rs f i' full s2 h0 hlt h1 h2 h3 ih =>
    intro hn
    obtain ⟨ts, sc, u⟩ := s
    obtain ⟨v, rest, rfl, hv, hb⟩ := split_at_comma ts
    rcases h i v sc u hv with ⟨y, w, u', g1, g2⟩ | g2
    · have e := g2 rest hb
      rw [h1] at e
      simp only [Prod.mk.injEq, Res.ok.injEq] at e
      obtain ⟨rfl, rfl⟩ := e
      have e' := g2 (rest ++ [c]) (hb.snoc hc)
      rw [← List.append_assoc] at e'
      by_cases hlen : i + 1 = len
      · obtain ⟨rfl, rfl, rfl⟩ := h3.enough (by omega)
        obtain ⟨full', h4⟩ := PosReads.stop (item := p) (len := len) (c := i + 1) ⟨w ++ (rest ++ [c]), sc, u'⟩ (by omega)
        cases hf
        exact ⟨_, full', ⟨w ++ (rest ++ [c]), sc, u'⟩, .last (by simp) hlt e' (.inr hlen) h4, rfl,
          atEnd_snoc hn (hv.suffix g1) hc⟩
      · have h2' := h2.resolve_right hlen
        obtain ⟨rfl, rfl, rfl⟩ := h3.nothing h2'
        simp only [List.append_eq_nil_iff] at h2'
        obtain ⟨rfl, rfl⟩ := h2'
        cases hf
        refine ⟨_, false, ⟨[], sc, u'⟩, .more (by simp) (by omega) e' rfl hc (.done rfl), rfl, ?_⟩
        simp [AtEnd]
    · exact absurd h1 (g2 rest hb _ _)
  | @more i s b s1 c' r rs f i' full s2 h0 hlt h1 h2 hc' h3 ih =>
    intro hn
    obtain ⟨ts, sc, u⟩ := s
    obtain ⟨v, rest, rfl, hv, hb⟩ := split_at_comma ts
    rcases h i v sc u hv with ⟨y, w, u', g1, g2⟩ | g2
    · have e := g2 rest hb
      rw [h1] at e
      simp only [Prod.mk.injEq, Res.ok.injEq] at e
      obtain ⟨rfl, rfl⟩ := e
      obtain ⟨rfl, rfl⟩ := left_comma (hv.suffix g1) hc' h2
      obtain ⟨rs', full', s1', i1, i2, i3⟩ := ih hf (hn.tail hc')
      refine ⟨_, _, _, .more (b := b) (s1 := ⟨c' :: r ++ [c], sc, u'⟩) (t := c') (rest := r ++ [c]) (by simp) hlt
        (by have := g2 (c' :: r ++ [c]) (hb.snoc hc); simpa using this) rfl hc' i1, by simp [i2], i3⟩
    · exact absurd h1 (g2 rest hb _ _)
  | failItem => cases hf
  | failSep => cases hf

theorem PosReads.drop_comma {α : Type} {p : Nat → M Stream α} (h : ∀ i, EndsAlike (p i)) {c : Tok} (hc : Comma c)
    {len i : Nat} {s : Stream} {rs i' full s1} (hr : PosReads p len i s rs none i' full s1) :
    ∀ ts, s.toks = ts ++ [c] → NoTrailing ts →
      ∃ rs' full' s1', PosReads p len i ⟨ts, s.scope, s.unexp⟩ rs' none i' full' s1' ∧
        rs'.map (·.1) = rs.map (·.1) ∧ (AtEnd s1'.toks ↔ AtEnd s1.toks) := by
  generalize hf : (none : Option SynErr) = f at hr
  induction hr with
  | done h0 => intro ts e; rw [h0] at e; simp at e
  | full h0 hle =>
    intro ts e hn
    exact ⟨_, _, _, .full hn.1 hle, rfl, by rw [e]; exact (not_atEnd_self hn hc).symm⟩
  | @last i s b s1 rs f i' full s2 h0 hlt h1 h2 h3 ih =>
    intro ts e hn
    obtain ⟨ts0, sc, u⟩ := s
    obtain ⟨v, rest, rfl, hv, hb⟩ := split_at_comma ts
    dsimp only at e
    subst e
    rcases h i v sc u hv with ⟨y, w, u', g1, g2⟩ | g2
    · have e := g2 (rest ++ [c]) (hb.snoc hc)
      rw [List.append_assoc] at h1
      rw [h1] at e
      simp only [Prod.mk.injEq, Res.ok.injEq] at e
      obtain ⟨rfl, rfl⟩ := e
      have hlen : i + 1 = len := h2.resolve_left (by simp)
      obtain ⟨rfl, rfl, rfl⟩ := h3.enough (by omega)
      obtain ⟨full', h4⟩ := PosReads.stop (item := p) (len := len) (c := i + 1) ⟨w ++ rest, sc, u'⟩ (by omega)
      cases hf
      exact ⟨_, full', ⟨w ++ rest, sc, u'⟩, .last hn.1 hlt (g2 rest hb) (.inr hlen) h4, rfl,
        (atEnd_snoc hn (hv.suffix g1) hc).symm⟩
    · exact absurd h1 (by rw [List.append_assoc]; exact g2 _ (hb.snoc hc) _ _)
  | @more i s b s1 c' r rs f i' full s2 h0 hlt h1 h2 hc' h3 ih =>
    intro ts e hn
    obtain ⟨ts0, sc, u⟩ := s
    obtain ⟨v, rest, rfl, hv, hb⟩ := split_at_comma ts
    dsimp only at e
    subst e
    rcases h i v sc u hv with ⟨y, w, u', g1, g2⟩ | g2
    · have e := g2 (rest ++ [c]) (hb.snoc hc)
      rw [List.append_assoc] at h1
      rw [h1] at e
      simp only [Prod.mk.injEq, Res.ok.injEq] at e
      obtain ⟨rfl, rfl⟩ := e
      obtain ⟨rfl, e2⟩ := left_comma (hv.suffix g1) hc' h2
      rcases hb with rfl | ⟨c'', r0, rfl, hc''⟩
      · simp only [List.nil_append, List.cons.injEq] at e2
        obtain ⟨rfl, rfl⟩ := e2
        obtain ⟨rfl, rfl, rfl⟩ := h3.nothing rfl
        cases hf
        exact ⟨_, false, ⟨[], sc, u'⟩, .last hn.1 (by omega) (g2 [] (.inl rfl)) (.inl rfl) (.done rfl), rfl, Iff.rfl⟩
      · simp only [List.cons_append, List.cons.injEq] at e2
        obtain ⟨rfl, rfl⟩ := e2
        obtain ⟨rs', full', s1', i1, i2, i3⟩ := ih hf r0 rfl (hn.tail hc'')
        refine ⟨_, _, _, .more (b := b) (s1 := ⟨c'' :: r0, sc, u'⟩) (t := c'') (rest := r0) (by simp) hlt
          (by have := g2 (c'' :: r0) (.inr ⟨_, _, rfl, hc''⟩); simpa using this) rfl hc' i1, by simp [i2], i3⟩
    · exact absurd h1 (by rw [List.append_assoc]; exact g2 _ (hb.snoc hc) _ _)
  | failItem => cases hf
  | failSep => cases hf

/-- One stream, as a list of streams. -/
theorem posReadsAll_one {β : Type} {item : Nat → M Stream β} {len c : Nat} {s : Stream} {rs c' l'} :
    PosReadsAll item len c [s] rs none c' l' ↔ ∃ full s1, l' = [s1] ∧ PosReads item len c s rs none c' full s1 := by
  constructor
  · intro h
    cases h with
    | next h1 h2 => cases h2; exact ⟨_, _, rfl, by simpa using h1⟩
    | full h1 => exact ⟨_, _, rfl, h1⟩
  · rintro ⟨full, s1, rfl, h⟩
    cases full with
    | true => exact .full h
    | false => simpa using PosReadsAll.next h .nil

theorem PosReads.comma_iff {α : Type} {p : Nat → M Stream α} (h : ∀ i, EndsAlike (p i)) {c : Tok} (hc : Comma c) {len : Nat}
    {ts : List Tok} (hn : NoTrailing ts) (sc : Span) (u : Option Span) (P : List α → Prop) (Q : Prop → Prop) :
    (∃ l', Q (∀ s ∈ l', AtEnd s.toks) ∧
        ∃ rs, PosReadsAll p len 0 [⟨ts ++ [c], sc, u⟩] rs none len l' ∧ P (rs.map (·.1))) ↔
      ∃ l', Q (∀ s ∈ l', AtEnd s.toks) ∧
        ∃ rs, PosReadsAll p len 0 [⟨ts, sc, u⟩] rs none len l' ∧ P (rs.map (·.1)) := by
  constructor
  · rintro ⟨l', hq, rs, h1, h2⟩
    obtain ⟨full, s1, rfl, h3⟩ := posReadsAll_one.1 h1
    obtain ⟨rs', full', s1', h4, h5, h6⟩ := h3.drop_comma h hc ts rfl hn
    refine ⟨[s1'], ?_, rs', posReadsAll_one.2 ⟨full', s1', rfl, h4⟩, h5 ▸ h2⟩
    simpa [h6] using hq
  · rintro ⟨l', hq, rs, h1, h2⟩
    obtain ⟨full, s1, rfl, h3⟩ := posReadsAll_one.1 h1
    obtain ⟨rs', full', s1', h4, h5, h6⟩ := h3.add_comma h hc hn
    refine ⟨[s1'], ?_, rs', posReadsAll_one.2 ⟨full', s1', rfl, h4⟩, h5 ▸ h2⟩
    simpa [h6] using hq

/-! ## In brackets -/

/-- Anything in brackets is accepted exactly if the content is, and at most a comma is left of it. -/
theorem delimited_iff {α : Type} {f : Mode → M (List Stream) α} {m : Mode} {dl : Delim} {inner : List Tok} {a b : Span}
    {rest : List Tok} {sc : Span} {u : Option Span} {x : α} (hf : ∃ r s', f m [⟨inner, b, u⟩] = (r, [s'])) :
    (parseDelimitedMetaItem dl f m ⟨.group dl inner a b :: rest, sc, u⟩).1 = .ok x ↔
      ∃ l', f m [⟨inner, b, u⟩] = (.ok x, l') ∧ ∀ s ∈ l', AtEnd s.toks := by
  obtain ⟨r, s', h⟩ := hf
  have key : (parseDelimitedMetaItem dl f m ⟨.group dl inner a b :: rest, sc, u⟩).1 = .ok x ↔ r = .ok x ∧ AtEnd s'.toks := by
    simp only [parseDelimitedMetaItem, parseDelimitedWith, withContent, enter, if_true, Bind.bind, M.bind, single, h,
      List.headD_cons]
    cases r with
    | panic => simp
    | err e => simp
    | ok v =>
      have hq := c04_eof s'
      by_cases ha : AtEnd s'.toks
      · simp only [hq.1 ha, Pure.pure, M.pure, ha, and_true]
      · simp only [ha, and_false, iff_false]
        rcases hq.2 ha with ⟨_, _, _, _, h2⟩ | ⟨_, _, _, _, _, h2⟩ <;> simp [h2]
  rw [key, h]
  constructor
  · rintro ⟨rfl, ha⟩; exact ⟨_, rfl, by simpa using ha⟩
  · rintro ⟨l', e, ha⟩
    simp only [Prod.mk.injEq] at e
    obtain ⟨rfl, rfl⟩ := e
    exact ⟨rfl, by simpa using ha⟩

theorem one_left {α : Type} {p : M (List Stream) α} (h : Good p) (s : Stream) : ∃ r s', p [s] = (r, [s']) := by
  have h1 := (h [s]).2
  rcases hp : p [s] with ⟨r, l⟩
  rw [hp] at h1
  cases h1 with
  | cons _ h2 => cases h2; exact ⟨_, _, rfl⟩

/-- Reading a list to the end leaves nothing, so nothing is added by brackets. -/
theorem brackets_iff {α : Type} {f : Mode → M (List Stream) α} {m : Mode} {dl : Delim} {inner : List Tok} {a b : Span}
    {rest : List Tok} {sc : Span} {u : Option Span} {x : α} (hf : Good (f m))
    (hl : ∀ l', f m [⟨inner, b, u⟩] = (.ok x, l') → AllRead l') :
    (parseDelimitedMetaItem dl f m ⟨.group dl inner a b :: rest, sc, u⟩).1 = .ok x ↔ (f m [⟨inner, b, u⟩]).1 = .ok x := by
  rw [delimited_iff (one_left hf _)]
  constructor
  · rintro ⟨l', h, _⟩; rw [h]
  · intro h
    exact ⟨_, Prod.ext h rfl, fun s hs => .inl (hl _ (Prod.ext h rfl) s hs)⟩

/-- **C118.**  `[a, b]` and `[a, b,]` are the same sequence. -/
theorem c118_sequence_brackets {α : Type} (d : Dict α) (hd : ∀ m, Good (d.parse m)) (he : d.EndsAlike) (m : Mode)
    {ts : List Tok} (hn : NoTrailing ts) {c : Tok} (hc : Comma c) (a b : Span) (rest : List Tok) (sc : Span)
    (u : Option Span) (xs : List α) :
    ((seqDict d).parse m ⟨.group .bracket (ts ++ [c]) a b :: rest, sc, u⟩).1 = .ok xs ↔
      ((seqDict d).parse m ⟨.group .bracket ts a b :: rest, sc, u⟩).1 = .ok xs := by
  have key : ∀ inner, ((seqDict d).parse m ⟨.group .bracket inner a b :: rest, sc, u⟩).1 = .ok xs ↔
      ((seqDict d).inline .unnamed [⟨inner, b, u⟩]).1 = .ok xs := fun inner =>
    brackets_iff (seqFlat_good hd _ _) fun l' h => (c23_only_elements d (hd _) _ _ _ _ _ h).elim fun _ h => h.2.2
  rw [key, key]
  exact c118_sequence d (hd _) he .unnamed hn hc b u xs

/-- **C118.**  The same for sets. -/
theorem c118_set_brackets [Env] {α : Type} [DecidableEq α] (d : Dict α) (hd : ∀ m, Good (d.parse m)) (he : d.EndsAlike)
    (m : Mode) {ts : List Tok} (hn : NoTrailing ts) {c : Tok} (hc : Comma c) (a b : Span) (rest : List Tok) (sc : Span)
    (u : Option Span) (xs : List α) :
    ((setDict d).parse m ⟨.group .bracket (ts ++ [c]) a b :: rest, sc, u⟩).1 = .ok xs ↔
      ((setDict d).parse m ⟨.group .bracket ts a b :: rest, sc, u⟩).1 = .ok xs := by
  have key : ∀ inner, ((setDict d).parse m ⟨.group .bracket inner a b :: rest, sc, u⟩).1 = .ok xs ↔
      ((setDict d).inline .unnamed [⟨inner, b, u⟩]).1 = .ok xs := fun inner =>
    brackets_iff (setFlat_good hd _ _) fun l' h => (c24_only_elements d (hd _) _ _ _ _ _ h).elim fun _ h => h.2.2.2
  rw [key, key]
  exact c118_set d (hd _) he .unnamed hn hc b u xs

/-- **C118.**  `{k = a, l = b}` and `{k = a, l = b,}` are the same map. -/
theorem c118_map_braces [Env] {κ ν : Type} [DecidableEq κ] (kd : Dict κ) (keyStr : κ → Str) (vd : Dict ν)
    (hk : ∀ m, Good (kd.parse m)) (hv : ∀ n sp, Good (vd.named n sp)) (hke : kd.EndsAlike) (hve : vd.EndsAlike)
    (hk0 : ∀ rest sc u x s', Boundary rest → kd.parse .unnamed ⟨rest, sc, u⟩ ≠ (.ok x, s')) (m : Mode)
    {ts : List Tok} (hn : NoTrailing ts) {c : Tok} (hc : Comma c) (a b : Span) (rest : List Tok) (sc : Span)
    (u : Option Span) (es : List (κ × ν)) :
    ((mapDict kd keyStr vd).parse m ⟨.group .brace (ts ++ [c]) a b :: rest, sc, u⟩).1 = .ok es ↔
      ((mapDict kd keyStr vd).parse m ⟨.group .brace ts a b :: rest, sc, u⟩).1 = .ok es := by
  have key : ∀ inner, ((mapDict kd keyStr vd).parse m ⟨.group .brace inner a b :: rest, sc, u⟩).1 = .ok es ↔
      ((mapDict kd keyStr vd).inline m [⟨inner, b, u⟩]).1 = .ok es := fun inner =>
    brackets_iff (mapFlat_good keyStr hk hv _ _) fun l' h =>
      (c25_only_entries kd keyStr vd (hk _) hv _ _ _ _ _ h).elim fun _ h => h.2.2.2
  rw [key, key]
  exact c118_map kd keyStr vd (hk _) hv hke hve hk0 m hn hc b u es

/-- **C118.**  A comma after the last element of an array may be written or left out, without brackets … -/
theorem c118_array [Env] {α : Type} (n : Nat) (d : Dict α) (hd : Good (d.parse .unnamed)) (he : d.EndsAlike) (m : Mode)
    {ts : List Tok} (hn : NoTrailing ts) {c : Tok} (hc : Comma c) (sc : Span) (u : Option Span) (xs : List α) :
    ((arrayDict n d).inline m [⟨ts ++ [c], sc, u⟩]).1 = .ok xs ↔ ((arrayDict n d).inline m [⟨ts, sc, u⟩]).1 = .ok xs := by
  have key : ∀ l, ((arrayDict n d).inline m l).1 = .ok xs ↔ ∃ l', True ∧ ∃ rs,
      PosReadsAll (fun _ => d.parse .unnamed) n 0 l rs none n l' ∧ xs = rs.map (·.1) ∧ xs.length = n := by
    intro l
    constructor
    · intro h
      exact ⟨_, trivial, (c21_exact n d hd m 0 l _ xs).1 (Prod.ext h rfl)⟩
    · rintro ⟨l', -, h⟩
      exact congrArg Prod.fst ((c21_exact n d hd m 0 l l' xs).2 h)
  rw [key, key]
  exact PosReads.comma_iff (fun _ => he.parse _) hc hn sc u (fun ys => xs = ys ∧ xs.length = n) fun _ => True

/-- … and in brackets. -/
theorem c118_array_brackets [Env] {α : Type} (n : Nat) (d : Dict α) (hd : ∀ m, Good (d.parse m)) (he : d.EndsAlike)
    (m : Mode) {ts : List Tok} (hn : NoTrailing ts) {c : Tok} (hc : Comma c) (a b : Span) (rest : List Tok) (sc : Span)
    (u : Option Span) (xs : List α) :
    ((arrayDict n d).parse m ⟨.group .bracket (ts ++ [c]) a b :: rest, sc, u⟩).1 = .ok xs ↔
      ((arrayDict n d).parse m ⟨.group .bracket ts a b :: rest, sc, u⟩).1 = .ok xs := by
  have key : ∀ inner, ((arrayDict n d).parse m ⟨.group .bracket inner a b :: rest, sc, u⟩).1 = .ok xs ↔
      ∃ l', (∀ s ∈ l', AtEnd s.toks) ∧ ∃ rs, PosReadsAll (fun _ => d.parse .unnamed) n 0 [⟨inner, b, u⟩] rs none n l' ∧
        xs = rs.map (·.1) ∧ xs.length = n := by
    intro inner
    refine (delimited_iff (f := fun m => (arrayFlat n d).parse m 0) (one_left (arrayFlat_good n hd _ _) _)).trans ?_
    constructor
    · rintro ⟨l', h1, h2⟩
      exact ⟨l', h2, (c21_exact n d (hd _) _ 0 _ _ xs).1 h1⟩
    · rintro ⟨l', h1, h2⟩
      exact ⟨l', (c21_exact n d (hd _) _ 0 _ _ xs).2 h2, h1⟩
  rw [key, key]
  exact PosReads.comma_iff (fun _ => he.parse _) hc hn b u (fun ys => xs = ys ∧ xs.length = n) fun p => p

theorem component_ends {α : Type} {ds : List (Dict α)} (h : ∀ d ∈ ds, d.EndsAlike) (i : Nat) : EndsAlike (component ds i) := by
  unfold component
  split
  · rename_i d hd; exact (h d (List.mem_of_getElem? hd)).parse _
  · exact .fails fun _ _ _ h => by cases h

/-- **C118.**  The same for tuples, without parentheses … -/
theorem c118_tuple [Env] {α : Type} (ds : List (Dict α)) (hd : ∀ d ∈ ds, Good (d.parse .unnamed))
    (he : ∀ d ∈ ds, d.EndsAlike) (m : Mode) {ts : List Tok} (hn : NoTrailing ts) {c : Tok} (hc : Comma c) (sc : Span)
    (u : Option Span) (xs : List α) :
    ((tupleDict ds).inline m [⟨ts ++ [c], sc, u⟩]).1 = .ok xs ↔ ((tupleDict ds).inline m [⟨ts, sc, u⟩]).1 = .ok xs := by
  have key : ∀ l, ((tupleDict ds).inline m l).1 = .ok xs ↔ ∃ l', True ∧ ∃ rs,
      PosReadsAll (component ds) ds.length 0 l rs none ds.length l' ∧ xs = rs.map (·.1) ∧ xs.length = ds.length := by
    intro l
    constructor
    · intro h
      exact ⟨_, trivial, (c22_exact ds hd m 0 l _ xs).1 (Prod.ext h rfl)⟩
    · rintro ⟨l', -, h⟩
      exact congrArg Prod.fst ((c22_exact ds hd m 0 l l' xs).2 h)
  rw [key, key]
  exact PosReads.comma_iff (component_ends he) hc hn sc u (fun ys => xs = ys ∧ xs.length = ds.length) fun _ => True

/-- … and in parentheses. -/
theorem c118_tuple_parens [Env] {α : Type} (ds : List (Dict α)) (hd : ∀ d ∈ ds, ∀ m, Good (d.parse m))
    (he : ∀ d ∈ ds, d.EndsAlike) (m : Mode) {ts : List Tok} (hn : NoTrailing ts) {c : Tok} (hc : Comma c) (a b : Span)
    (rest : List Tok) (sc : Span) (u : Option Span) (xs : List α) :
    ((tupleDict ds).parse m ⟨.group .paren (ts ++ [c]) a b :: rest, sc, u⟩).1 = .ok xs ↔
      ((tupleDict ds).parse m ⟨.group .paren ts a b :: rest, sc, u⟩).1 = .ok xs := by
  have key : ∀ inner, ((tupleDict ds).parse m ⟨.group .paren inner a b :: rest, sc, u⟩).1 = .ok xs ↔
      ∃ l', (∀ s ∈ l', AtEnd s.toks) ∧ ∃ rs, PosReadsAll (component ds) ds.length 0 [⟨inner, b, u⟩] rs none ds.length l' ∧
        xs = rs.map (·.1) ∧ xs.length = ds.length := by
    intro inner
    refine (delimited_iff (f := fun m => (tupleFlat ds).parse m 0) (one_left (tupleFlat_good hd _ _) _)).trans ?_
    constructor
    · rintro ⟨l', h1, h2⟩
      exact ⟨l', h2, (c22_exact ds (fun d h => hd d h _) _ 0 _ _ xs).1 h1⟩
    · rintro ⟨l', h1, h2⟩
      exact ⟨l', (c22_exact ds (fun d h => hd d h _) _ 0 _ _ xs).2 h2, h1⟩
  rw [key, key]
  exact PosReads.comma_iff (component_ends he) hc hn b u (fun ys => xs = ys ∧ xs.length = ds.length) fun p => p

/-! ## Where it is not so -/

/-- With no elements at all there is a difference: `[,]` is not a sequence, although `[]` is one. -/
theorem c118_lone_comma_violated : ¬ ∀ {α : Type} (d : Dict α), (∀ m, Good (d.parse m)) → d.EndsAlike →
    ∀ (c : Tok), Comma c → ∀ a b xs, ((seqDict d).parse .unnamed ⟨[.group .bracket [] a b], 9, none⟩).1 = .ok xs →
      ((seqDict d).parse .unnamed ⟨[.group .bracket [c] a b], 9, none⟩).1 = .ok xs := by
  intro h
  have := h boolDict boolDict_good.parse ends_bool (.punct ',' false 1) ⟨_, _, rfl⟩ 2 3 [] rfl
  cases this

/-- An array without elements takes a comma alone. -/
theorem c118_empty_array [Env] {α : Type} (d : Dict α) (c : Tok) (hc : Comma c) (m : Mode) (a b : Span) (rest : List Tok)
    (sc : Span) (u : Option Span) :
    ((arrayDict 0 d).parse m ⟨.group .bracket [c] a b :: rest, sc, u⟩).1 = .ok [] := by
  obtain ⟨j, sp, rfl⟩ := hc
  rfl

/-- `[true, false]` and `[true, false,]` as an array of two. -/
example [Env] : NoTrailing [.ident "true".toList 1, .punct ',' false 2, .ident "false".toList 3] ∧
    ((arrayDict 2 boolDict).parse .unnamed ⟨[.group .bracket
      [.ident "true".toList 1, .punct ',' false 2, .ident "false".toList 3] 4 5], 9, none⟩).1 = .ok [true, false] := by
  refine ⟨⟨by simp, fun ts' c hc e => ?_⟩, rfl⟩
  obtain ⟨j, sp, rfl⟩ := hc
  have := congrArg List.getLast? e
  simp at this

/-- `{"a" = true}` as a map with strings for keys; a string is never read from nothing. -/
example [Env] : ((mapDict stringDict id boolDict).parse .unnamed ⟨[.group .brace
      [.lit (.str "a".toList) 1, .punct '=' false 2, .ident "true".toList 3] 4 5], 9, none⟩).1 =
        .ok [("a".toList, true)] ∧
    ∀ rest sc u x s', Boundary rest → stringDict.parse .unnamed ⟨rest, sc, u⟩ ≠ (.ok x, s') := by
  refine ⟨rfl, fun rest sc u x s' hb h => ?_⟩
  rcases hb with rfl | ⟨c, r, rfl, _, _, rfl⟩
  · cases h
  · cases h

end Deluxe
