import Verif.Spec.Write
import Verif.Props.Forms
import Verif.Props.Primitives
import Verif.Props.Local
import Verif.Props.TupleStructs
import Verif.Props.Variants
import Verif.Props.TopParse
/-!
# C111: Every value can be written
-/
namespace Deluxe

variable {α β V : Type}

/-- A comma. -/
def comma : Tok := .punct ',' false callSite
theorem comma_comma : Comma comma := ⟨false, callSite, rfl⟩

/-- The items, each followed by a comma. -/
def withCommas (l : List (List Tok)) : List Tok := l.flatMap (· ++ [comma])

/-- Items with commas are items. -/
theorem items_withCommas {β : Type} {seg : List Tok → List Tok → Span → β → Prop} {sc : Span} (l : List (List Tok × β))
    (h : ∀ x ∈ l, ∀ rest, Boundary rest → seg x.1 rest sc x.2) :
    Items seg sc (withCommas (l.map (·.1))) (l.map (·.2)) := by
  induction l with
  | nil => exact .nil
  | cons x l ih =>
    have := Items.cons (seg := seg) (sc := sc) comma_comma (h x (by simp) _ (.inr ⟨comma, _, rfl, comma_comma⟩))
      (ih fun y hy => h y (List.mem_cons_of_mem _ hy))
    simpa [withCommas] using this

theorem noComma_group (dl : Delim) (inner : List Tok) (a b : Span) : NoComma [.group dl inner a b] := by
  intro t ht
  simp only [List.mem_singleton] at ht
  subst ht
  rintro ⟨_, _, h⟩
  cases h

/-- What can be written inside of delimiters can be written with them. -/
theorem writes_group {d : Dict α} {dl : Delim} {named : Bool} {f : Mode → M (List Stream) α}
    (hp : ∀ m, m.isNamed = named → ∀ s, ∃ m', d.parse m s = parseDelimitedMetaItem dl f m' s) {a : α} {v : List Tok}
    (h : ∀ m sc u, ∃ s', f m [⟨v, sc, u⟩] = (.ok a, [s']) ∧ AtEnd s'.toks) :
    Writes d named a [.group dl v callSite callSite] := by
  refine ⟨by simp, noComma_group _ _ _ _, fun m hm rest sc _ u => ?_⟩
  obtain ⟨m', hm'⟩ := hp m hm ⟨[.group dl v callSite callSite] ++ rest, sc, u⟩
  obtain ⟨s', h1, h2⟩ := h m' callSite u
  obtain ⟨u', h3⟩ := delimited_atEnd (dl := dl) (a := callSite) (rest := rest) (sc := sc) h1 h2 (by simp)
  exact ⟨u', by rw [hm']; exact h3⟩

theorem noComma_cons_eq {v : List Tok} (h : NoComma v) : NoComma (.punct '=' false callSite :: v) := by
  intro t ht
  rcases List.mem_cons.1 ht with rfl | ht
  · rintro ⟨_, _, h⟩
    simp at h
  · exact h t ht

/-- A value after `=`. -/
theorem Writes.item {d : Dict α} (hd : d.DefaultNamed) {a : α} {v : List Tok} (h : Writes d true a v) :
    WritesItem d a (.punct '=' false callSite :: v) := by
  refine ⟨noComma_cons_eq h.noComma, ?_, fun n sp rest sc hr u => ?_⟩
  · rintro ⟨_, _, _, _, h⟩
    simp at h
  · rw [hd, List.cons_append, c05_equals]
    exact h.reads (.named sp) rfl rest sc hr u

/-- The default for values in delimiters. -/
theorem Writes.inside {d : Dict α} (hd : d.inline = parseFirst d.parse) {a : α} {v : List Tok}
    (h : Writes d false a v) : WritesInside d a v := by
  intro sc u
  obtain ⟨u', h1⟩ := h.reads .unnamed rfl [] sc (.inl rfl) u
  rw [List.append_nil] at h1
  refine ⟨⟨[], sc, u'⟩, ?_, .inl rfl⟩
  rw [hd]
  simp only [parseFirst, bind, M.bind, h1]
  rfl

/-- A type that reads its values the same way everywhere. -/
theorem canWrite_of {d : Dict α} (hd : d.DefaultNamed) (hi : d.inline = parseFirst d.parse) {P : α → Prop}
    (h : ∀ a, P a → ∃ v, ∀ named, Writes d named a v) : CanWrite d (.same P) where
  elem a ha := by
    obtain ⟨v, hv⟩ := h a ha
    exact ⟨⟨v, hv false⟩, v, (hv false).inside hi⟩
  val a ha := by
    obtain ⟨v, hv⟩ := h a ha
    exact ⟨v, hv true⟩
  item a ha := by
    obtain ⟨v, hv⟩ := h a ha
    exact ⟨_, (hv true).item hd⟩

/-! ## Single tokens -/

/-- A type that reads some tokens without looking further. -/
theorem canWrite_mk' {p : Mode → M Stream α} {fl : Span → Res α} {ms : Str → Span → Res α} {P : α → Prop}
    (h : ∀ a, P a → ∃ v, v ≠ [] ∧ NoComma v ∧ ∀ m rest sc u, Boundary rest → p m ⟨v ++ rest, sc, u⟩ = (.ok a, ⟨rest, sc, u⟩)) :
    CanWrite (.mk' (parse := p) (flag := fl) (missing := ms)) (.same P) :=
  canWrite_of (fun _ _ => rfl) rfl fun a ha => by
    obtain ⟨v, h1, h2, h3⟩ := h a ha
    exact ⟨v, fun _ => ⟨h1, h2, fun m _ rest sc hr u => ⟨u, h3 m rest sc u hr⟩⟩⟩

theorem noComma_one {t : Tok} (h : t.isComma = false) : NoComma [t] := by
  intro x hx
  simp only [List.mem_singleton] at hx
  subst hx
  exact (isComma_eq_false_iff _).1 h

theorem c111_bool : CanWrite boolDict (.same fun _ => True) :=
  canWrite_mk' fun b _ => ⟨[.ident (boolName b) callSite], by simp, noComma_one rfl, fun m rest sc u _ =>
    ((c62_bool m _ _ b).1).2 ⟨_, rest, rfl, rfl⟩⟩

theorem c111_string : CanWrite stringDict (.same fun _ => True) :=
  canWrite_mk' fun v _ => ⟨[.lit (.str v) callSite], by simp, noComma_one rfl, fun m rest sc u _ => rfl⟩

theorem c111_char : CanWrite charDict (.same fun _ => True) :=
  canWrite_mk' fun c _ => ⟨[.lit (.char c) callSite], by simp, noComma_one rfl, fun m rest sc u _ => rfl⟩

/-- Integers of the type: all that the conversion gives. -/
theorem c111_int (conv : Bool × Nat → Option α) : CanWrite (intDict conv) (.same fun a => ∃ n, conv n = some a) :=
  canWrite_mk' fun a ⟨n, hn⟩ => by
    match n, hn with
    | (false, n), hn =>
      refine ⟨[.lit (.int n) callSite], by simp, noComma_one rfl, fun m rest sc u _ => ?_⟩
      have h : parseLitInt ⟨[.lit (.int n) callSite] ++ rest, sc, u⟩ = (.ok (false, n), ⟨rest, sc, u⟩) := rfl
      simp only [h, hn]
    | (true, n), hn =>
      refine ⟨[.punct '-' false callSite, .lit (.int n) callSite], by simp, ?_, fun m rest sc u _ => ?_⟩
      · intro t ht
        simp only [List.mem_cons, List.not_mem_nil, or_false] at ht
        rcases ht with rfl | rfl <;> exact (isComma_eq_false_iff _).1 rfl
      · have h : parseLitInt ⟨[.punct '-' false callSite, .lit (.int n) callSite] ++ rest, sc, u⟩ =
            (.ok (true, n), ⟨rest, sc, u⟩) := rfl
        simp only [h, hn]

theorem c111_u8 : CanWrite u8Dict (.same (· < 256)) :=
  canWrite_mk' fun n hn => ⟨[.lit (.int n) callSite], by simp, noComma_one rfl, fun m rest sc u _ => by simp [hn]⟩

theorem c111_ident : CanWrite identDict (.same fun _ => True) :=
  canWrite_mk' fun x _ => ⟨[.ident x callSite], by simp, noComma_one rfl, fun m rest sc u _ => rfl⟩

theorem c111_literal : CanWrite literalDict (.same fun _ => True) :=
  canWrite_mk' fun l _ => ⟨[.lit l callSite], by simp, noComma_one rfl, fun m rest sc u _ => rfl⟩

theorem c111_group : CanWrite groupDict (.same fun _ => True) :=
  canWrite_mk' fun g _ => ⟨[.group g.1 g.2 callSite callSite], by simp, noComma_group _ _ _ _, fun m rest sc u _ => rfl⟩

theorem takeToks_all {ts rest : List Tok} (h : NoComma ts) (hr : Boundary rest) : takeToks (ts ++ rest) = (ts, rest) := by
  rcases hr with rfl | ⟨c, r, rfl, hc⟩
  · rw [List.append_nil]
    induction ts with
    | nil => rfl
    | cons t ts ih =>
      have ht : t.isComma = false := (isComma_eq_false_iff t).2 (h t (.head _))
      simp [takeToks, ht, ih fun x hx => h x (.tail _ hx)]
  · exact takeToks_local ts c r h hc

/-- Token streams without a comma outside of groups; an empty one only as a name with nothing after it. -/
theorem c111_tokenStream : CanWrite tokenStreamDict ⟨fun ts => ts ≠ [] ∧ NoComma ts, fun ts => ts ≠ [] ∧ NoComma ts, NoComma⟩ := by
  have key : CanWrite tokenStreamDict (.same fun ts => ts ≠ [] ∧ NoComma ts) :=
    canWrite_mk' fun ts hts => ⟨ts, hts.1, hts.2, fun m rest sc u hr => by
      have htake := takeToks_all hts.2 hr
      match ts, hts with
      | t :: ts, hts =>
        have ht : t.isPunct ',' = false := (isComma_eq_false_iff t).2 (hts.2 t (.head _))
        simp only [tokenStreamParse, htake]
        simp [Stream.peekPunct, ht]⟩
  refine ⟨key.elem, key.val, fun ts hts => ?_⟩
  by_cases h : ts = []
  · subst h
    refine ⟨[], (by intro t ht; cases ht), (by rintro ⟨_, _, _, _, h⟩; cases h), fun n sp rest sc hr u => ⟨u, ?_⟩⟩
    rcases hr with rfl | ⟨c, r, rfl, ⟨_, _, rfl⟩⟩ <;> rfl
  · exact key.item ts ⟨h, hts⟩

theorem c111_unit : CanWrite unitDict (.same fun _ => True) where
  elem _ _ := ⟨⟨[.group .paren [] callSite callSite], by simp, noComma_group _ _ _ _, fun m _ rest sc _ u => ⟨_, rfl⟩⟩,
    [], fun sc u => ⟨_, rfl, .inl rfl⟩⟩
  val _ _ := ⟨[.group .paren [] callSite callSite], by simp, noComma_group _ _ _ _, fun m _ rest sc _ u => ⟨_, rfl⟩⟩
  item _ _ := ⟨[], (by intro t ht; cases ht), (by rintro ⟨_, _, _, _, h⟩; cases h), fun n sp rest sc hr u => ⟨u, by
    rcases hr with rfl | ⟨c, r, rfl, ⟨_, _, rfl⟩⟩ <;> rfl⟩⟩

/-! ## Lists in delimiters -/

/-- A type whose values are lists in delimiters, which are left out in `Some(..)`. -/
theorem canWrite_inline {d : Dict α} {dl : Delim} (hd : d.DefaultNamed) (hg : d.Good)
    (hp : ∀ m s, ∃ m', d.parse m s = parseDelimitedMetaItem dl d.inline m' s) {P : α → Prop}
    (h : ∀ a, P a → ∃ v, ∀ m sc u, ∃ l', d.inline m [⟨v, sc, u⟩] = (.ok a, l') ∧ ∀ s ∈ l', AtEnd s.toks) :
    CanWrite d (.same P) := by
  have key : ∀ a, P a → ∃ v, ∀ m sc u, ∃ s', d.inline m [⟨v, sc, u⟩] = (.ok a, [s']) ∧ AtEnd s'.toks := by
    intro a ha
    obtain ⟨v, hv⟩ := h a ha
    refine ⟨v, fun m sc u => ?_⟩
    obtain ⟨l', h1, h2⟩ := hv m sc u
    have hl := AdvL.length ((hg.inline m) [⟨v, sc, u⟩]).2
    rw [h1] at hl
    match l', hl, h1, h2 with
    | [s'], _, h1, h2 => exact ⟨s', h1, h2 s' (by simp)⟩
  have hw : ∀ named a, P a → ∃ v, Writes d named a v := by
    intro named a ha
    obtain ⟨v, hv⟩ := key a ha
    exact ⟨_, writes_group (dl := dl) (f := d.inline) (fun m _ s => hp m s) hv⟩
  refine ⟨fun a ha => ⟨hw false a ha, ?_⟩, hw true, fun a ha => ?_⟩
  · obtain ⟨v, hv⟩ := key a ha
    exact ⟨v, hv .unnamed⟩
  · obtain ⟨v, hv⟩ := hw true a ha
    exact ⟨_, hv.item hd⟩

theorem choose_list {A B : Type} {R : A → B → Prop} (l : List A) (h : ∀ a ∈ l, ∃ b, R a b) :
    ∃ ps : List (B × A), ps.map (·.2) = l ∧ ∀ p ∈ ps, R p.2 p.1 := by
  induction l with
  | nil => exact ⟨[], rfl, by simp⟩
  | cons a l ih =>
    obtain ⟨b, hb⟩ := h a (by simp)
    obtain ⟨ps, h1, h2⟩ := ih fun x hx => h x (List.mem_cons_of_mem _ hx)
    refine ⟨(b, a) :: ps, by simp [h1], fun p hp => ?_⟩
    rcases List.mem_cons.1 hp with rfl | hp
    · exact hb
    · exact h2 p hp

theorem writes_list {d : Dict α} {D : Domain α} (h : CanWrite d D) (l : List α) (hl : ∀ a ∈ l, D.elem a) :
    ∃ ps : List (List Tok × α), ps.map (·.2) = l ∧ ∀ p ∈ ps, Writes d false p.2 p.1 :=
  choose_list (R := fun a v => Writes d false a v) l fun a ha => (h.elem a (hl a ha)).1

theorem items_all {β : Type} {seg : List Tok → List Tok → Span → β → Prop} {v : List Tok} {sc : Span} {u : Option Span}
    {bs : List β} (h : Items seg sc v bs) : ItemsAll seg [⟨v, sc, u⟩] bs := by
  simpa using ItemsAll.cons (s := ⟨v, sc, u⟩) h .nil

theorem errMsgs_oks (l : List α) : errMsgs (l.map (Except.ok (ε := SynErr))) = [] := by
  induction l <;> simp_all [errMsgs]

theorem okVals_oks (l : List α) : okVals (l.map (Except.ok (ε := SynErr))) = l := by
  induction l <;> simp_all [okVals]

/-- Elements with commas, as a list of elements. -/
theorem elems_items {d : Dict α} {l : List α} {ps : List (List Tok × α)} (h1 : ps.map (·.2) = l)
    (h2 : ∀ p ∈ ps, Writes d false p.2 p.1) (sc : Span) :
    Items (ReadsAs (d.parse .unnamed)) sc (withCommas (ps.map (·.1))) (l.map .ok) := by
  have := items_withCommas (seg := ReadsAs (d.parse .unnamed)) (sc := sc)
    (ps.map fun p => (p.1, Except.ok (ε := SynErr) p.2)) (by
      intro x hx rest hr
      obtain ⟨p, hp, rfl⟩ := List.mem_map.1 hx
      exact (h2 p hp).reads .unnamed rfl rest sc hr)
  rw [List.map_map, List.map_map] at this
  rw [← h1, List.map_map]
  exact this

theorem allRead_atEnd {l : List Stream} (h : AllRead l) : ∀ s ∈ l, AtEnd s.toks := fun s hs => .inl (h s hs)

/-- All lists of writable elements. -/
theorem c111_seq {d : Dict α} {D : Domain α} (hg : d.Good) (h : CanWrite d D) :
    CanWrite (seqDict d) (.same fun l => ∀ a ∈ l, D.elem a) := by
  refine canWrite_inline (dl := .bracket) (fun _ _ => rfl) (seqDict_good hg.parse) (fun m s => ⟨.unnamed, rfl⟩) fun l hl => ?_
  obtain ⟨ps, h1, h2⟩ := writes_list h l hl
  refine ⟨withCommas (ps.map (·.1)), fun m sc u => ?_⟩
  obtain ⟨r, l', _, h4, h5, h6⟩ := c23_sequence d (hg.parse _) m 0 _ _ (items_all (u := u) (elems_items h1 h2 sc))
  rw [h6.1 (errMsgs_oks l), okVals_oks] at h4
  exact ⟨l', h4, allRead_atEnd h5⟩

section
variable [Env]

/-- All arrays of writable elements. -/
theorem c111_array (n : Nat) {d : Dict α} {D : Domain α} (hg : d.Good) (h : CanWrite d D) :
    CanWrite (arrayDict n d) (.same fun l => l.length = n ∧ ∀ a ∈ l, D.elem a) := by
  refine canWrite_inline (dl := .bracket) (fun _ _ => rfl) (arrayDict_good n hg.parse) (fun m s => ⟨.unnamed, rfl⟩)
    fun l hl => ?_
  obtain ⟨ps, h1, h2⟩ := writes_list h l hl.2
  refine ⟨withCommas (ps.map (·.1)), fun m sc u => ?_⟩
  obtain ⟨r, l', _, h4, h5, h6⟩ := c21_elements n d m 0 _ _ (items_all (u := u) (elems_items h1 h2 sc))
  rw [h6.1 (by rw [List.take_of_length_le (by simp [hl.1]), errMsgs_oks]; simp [hl.1]),
    List.take_of_length_le (by simp [hl.1]), okVals_oks] at h4
  exact ⟨l', h4 rfl, h5 (by simp [hl.1])⟩

/-- All lists of different writable elements. -/
theorem c111_set [DecidableEq α] {d : Dict α} {D : Domain α} (hg : d.Good) (h : CanWrite d D) :
    CanWrite (setDict d) (.same fun l => l.Nodup ∧ ∀ a ∈ l, D.elem a) := by
  refine canWrite_inline (dl := .bracket) (fun _ _ => rfl) (setDict_good hg.parse) (fun m s => ⟨.unnamed, rfl⟩) fun l hl => ?_
  obtain ⟨ps, h1, h2⟩ := writes_list h l hl.2
  refine ⟨withCommas (ps.map (·.1)), fun m sc u => ?_⟩
  have hi : ∀ {v : List Tok} {bs : List (Except SynErr α)}, Items (ReadsAs (d.parse .unnamed)) sc v bs →
      ∃ rs : List (Except SynErr α × Span), rs.map (·.1) = bs ∧ Items (ElemSeg (d.parse .unnamed)) sc v rs := by
    intro v bs hi
    induction hi with
    | nil => exact ⟨[], rfl, .nil⟩
    | last hv hs => exact ⟨[(_, _)], rfl, .last hv ⟨hs, rfl⟩⟩
    | cons hc hs _ ih =>
      obtain ⟨rs, h3, h4⟩ := ih
      exact ⟨(_, _) :: rs, by simp only [List.map_cons, h3], .cons hc ⟨hs, rfl⟩ h4⟩
  obtain ⟨rs, h3, h4⟩ := hi (elems_items h1 h2 sc)
  obtain ⟨r, l', _, h5, h6, h7, h8⟩ := c24_set d (hg.parse _) m 0 _ _ (items_all (u := u) h4)
  obtain ⟨vs, rfl⟩ := h8.2 ⟨fun x hx => by
    have : x.1 ∈ l.map (Except.ok (ε := SynErr)) := h3 ▸ List.mem_map_of_mem hx
    obtain ⟨a, _, ha⟩ := List.mem_map.1 this
    exact ⟨a, ha.symm⟩, by rw [h3, okVals_oks]; exact hl.1⟩
  have := (collects_ok h7 rfl).2
  rw [h3, okVals_oks] at this
  subst this
  exact ⟨l', h5, allRead_atEnd h6⟩

/-- All tuples of writable components. -/
theorem c111_tuple {ds : List (Dict α)} {D : Nat → Domain α} (hg : ∀ d ∈ ds, d.Good)
    (h : ∀ (i : Nat) d, ds[i]? = some d → CanWrite d (D i)) :
    CanWrite (tupleDict ds) (.same fun l => l.length = ds.length ∧ ∀ (i : Nat) a, l[i]? = some a → (D i).elem a) := by
  refine canWrite_inline (dl := .paren) (fun _ _ => rfl) (tupleDict_good fun d hd => (hg d hd).parse)
    (fun m s => ⟨.unnamed, rfl⟩) fun l hl => ?_
  obtain ⟨ps, h1, h2⟩ := choose_list (R := fun (x : α × Nat) v => ∀ d, ds[x.2]? = some d → Writes d false x.1 v) l.zipIdx (by
    rintro ⟨a, i⟩ hx
    have hx' : l[i]? = some a := by simpa [List.mem_zipIdx_iff_getElem?] using hx
    have hlt : i < ds.length := hl.1 ▸ (List.getElem?_eq_some_iff.1 hx').1
    obtain ⟨⟨v, hv⟩, _⟩ := (h i ds[i] (List.getElem?_eq_getElem hlt)).elem a (hl.2 i a hx')
    refine ⟨v, fun d hd => ?_⟩
    simp only [List.getElem?_eq_getElem hlt, Option.some.injEq] at hd
    exact hd ▸ hv)
  refine ⟨withCommas (ps.map (·.1)), fun m sc u => ?_⟩
  have hi : Items (CompSeg ds) sc (withCommas (ps.map (·.1))) (l.zipIdx.map fun x => (x.2, Except.ok (ε := SynErr) x.1)) := by
    have := items_withCommas (seg := CompSeg ds) (sc := sc)
      (ps.map fun p => (p.1, (p.2.2, Except.ok (ε := SynErr) p.2.1))) (by
        intro x hx rest hr
        obtain ⟨p, hp, rfl⟩ := List.mem_map.1 hx
        have hm : p.2 ∈ l.zipIdx := h1 ▸ List.mem_map_of_mem hp
        have hx' : l[p.2.2]? = some p.2.1 := by simpa [List.mem_zipIdx_iff_getElem?] using hm
        have hlt : p.2.2 < ds.length := hl.1 ▸ (List.getElem?_eq_some_iff.1 hx').1
        refine .inl ⟨hlt, ?_⟩
        have hd := List.getElem?_eq_getElem hlt
        simp only [component, hd]
        exact (h2 p hp _ hd).reads .unnamed rfl rest sc hr)
    rw [List.map_map, List.map_map] at this
    rw [← h1, List.map_map]
    exact this
  have hmap : (l.zipIdx.map fun x => (x.2, Except.ok (ε := SynErr) x.1)).map (·.2) = l.map .ok := by
    rw [List.map_map]
    show l.zipIdx.map (fun x : α × Nat => (.ok x.1 : Except SynErr α)) = _
    rw [show (fun x : α × Nat => (.ok x.1 : Except SynErr α)) = Except.ok ∘ Prod.fst from rfl, ← List.map_map,
      List.zipIdx_map_fst]
  have hnum : Numbered 0 (l.zipIdx.map fun x => (x.2, Except.ok (ε := SynErr) x.1)) := by
    rw [Numbered, List.map_map]
    show l.zipIdx.map (fun x => x.2) = _
    simp [List.range_eq_range']
  obtain ⟨r, l', _, h4, h5, h6⟩ := c22_components ds m 0 _ _ (items_all (u := u) hi) hnum
  rw [hmap, List.take_of_length_le (by simp [hl.1]), okVals_oks, errMsgs_oks] at h6
  rw [h6.1 (by simp [hl.1])] at h4
  exact ⟨l', h4, h5 (by simp [hl.1])⟩

/-- All maps with different writable keys and writable values. -/
theorem c111_map {κ ν : Type} [DecidableEq κ] {kd : Dict κ} (keyStr : κ → Str) {vd : Dict ν} {K : κ → Prop} {D : Domain ν}
    (hk : kd.Good) (hv : vd.Good) (hK : ∀ k, K k → ∃ kt, WritesKey kd k kt) (h : CanWrite vd D) :
    CanWrite (mapDict kd keyStr vd) (.same fun l => (l.map (·.1)).Nodup ∧ ∀ x ∈ l, K x.1 ∧ D.item x.2) := by
  refine canWrite_inline (dl := .brace) (fun _ _ => rfl) (mapDict_good keyStr hk.parse hv.named) (fun m s => ⟨.unnamed, rfl⟩)
    fun l hl => ?_
  obtain ⟨ps, h1, h2⟩ := choose_list
    (R := fun (x : κ × ν) (v : List Tok × List Tok) => WritesKey kd x.1 v.1 ∧ WritesItem vd x.2 v.2) l (by
      intro x hx
      obtain ⟨kt, hkt⟩ := hK x.1 (hl.2 x hx).1
      obtain ⟨vt, hvt⟩ := h.item x.2 (hl.2 x hx).2
      exact ⟨(kt, vt), hkt, hvt⟩)
  refine ⟨withCommas (ps.map fun p => p.1.1 ++ p.1.2), fun m sc u => ?_⟩
  have hi : ∃ es, es.map (fun e : κ × Except SynErr ν × Span => (e.1, e.2.1)) = l.map (fun x => (x.1, .ok x.2)) ∧
      Items (EntrySeg (kd.parse .unnamed) keyStr vd.named) sc (withCommas (ps.map fun p => p.1.1 ++ p.1.2)) es := by
    clear hl
    induction ps generalizing l with
    | nil => exact ⟨[], by simpa using h1, .nil⟩
    | cons p ps ih =>
      subst h1
      obtain ⟨es, h3, h4⟩ := ih _ rfl fun q hq => h2 q (List.mem_cons_of_mem _ hq)
      obtain ⟨g1, g2⟩ := h2 p (by simp)
      have := Items.cons (sc := sc) comma_comma (EntrySeg.mk (keyStr := keyStr) rfl (g1.reads _ sc)
        (g2.reads _ _ _ sc (.inr ⟨comma, _, rfl, comma_comma⟩))) h4
      refine ⟨_, ?_, by simpa only [withCommas, List.map_cons, List.flatMap_cons, List.append_assoc,
        List.cons_append, List.nil_append] using this⟩
      simp [h3]
  obtain ⟨es, h3, h4⟩ := hi
  obtain ⟨r, l', _, h5, h6, h7, h8⟩ := c25_map kd keyStr vd (hk.parse _) hv.named m 0 _ _ (items_all (u := u) h4)
  have hkeys : es.map (·.1) = l.map (·.1) := by
    have := congrArg (List.map Prod.fst) h3
    simpa [List.map_map, Function.comp_def] using this
  have hok : okPairs es = l := by
    clear h1 h2 h4 h5 h7 h8 hl hkeys
    induction es generalizing l with
    | nil => cases l <;> simp_all [okPairs]
    | cons e es ih =>
      cases l with
      | nil => simp at h3
      | cons x l =>
        obtain ⟨k, y, sp⟩ := e
        simp only [List.map_cons, List.cons.injEq, Prod.mk.injEq] at h3
        obtain ⟨⟨rfl, rfl⟩, h3⟩ := h3
        simp [okPairs, ih l h3]
  obtain ⟨vs, rfl⟩ := h8.2 ⟨fun x hx => by
    have : (x.1, x.2.1) ∈ l.map (fun x => (x.1, Except.ok (ε := SynErr) x.2)) := by
      rw [← h3]; exact List.mem_map_of_mem (f := fun e : κ × Except SynErr ν × Span => (e.1, e.2.1)) hx
    obtain ⟨a, _, ha⟩ := List.mem_map.1 this
    exact ⟨a.2, (congrArg Prod.snd ha).symm⟩, by rw [hkeys]; exact hl.1⟩
  have := (collects_ok h7 rfl).2
  rw [hok] at this
  subst this
  exact ⟨l', h5, allRead_atEnd h6⟩

end

/-! ## Types around a type -/

/-- A converted type: the converted values. -/
def Domain.image (D : Domain α) (f : α → β) : Domain β :=
  ⟨fun b => ∃ a, D.elem a ∧ f a = b, fun b => ∃ a, D.val a ∧ f a = b, fun b => ∃ a, D.item a ∧ f a = b⟩

theorem map_reads {σ : Type} {p : M σ α} {s s' : σ} {a : α} (f : α → β) (h : p s = (.ok a, s')) :
    p.map f s = (.ok (f a), s') := M.map_ok f h

theorem c111_convert (f : α → β) {d : Dict α} {D : Domain α} (h : CanWrite d D) : CanWrite (d.map f) (D.image f) := by
  have hw : ∀ {named a v}, Writes d named a v → Writes (d.map f) named (f a) v := fun hv =>
    ⟨hv.some, hv.noComma, fun m hm rest sc hr u => by
      obtain ⟨u', h1⟩ := hv.reads m hm rest sc hr u
      exact ⟨u', map_reads f h1⟩⟩
  refine ⟨?_, ?_, ?_⟩
  · rintro _ ⟨a, ha, rfl⟩
    obtain ⟨⟨v, hv⟩, w, hi⟩ := h.elem a ha
    refine ⟨⟨v, hw hv⟩, w, fun sc u => ?_⟩
    obtain ⟨s', h1, h2⟩ := hi sc u
    exact ⟨s', map_reads f h1, h2⟩
  · rintro _ ⟨a, ha, rfl⟩
    obtain ⟨v, hv⟩ := h.val a ha
    exact ⟨v, hw hv⟩
  · rintro _ ⟨a, ha, rfl⟩
    obtain ⟨v, hv⟩ := h.item a ha
    refine ⟨v, hv.noComma, hv.start, fun n sp rest sc hr u => ?_⟩
    obtain ⟨u', h1⟩ := hv.reads n sp rest sc hr u
    exact ⟨u', map_reads f h1⟩

/-- `Box` and the like, which do not forward the ways to write an item. -/
theorem c111_wrapper {d : Dict α} {D : Domain α} (h : CanWrite d D) : CanWrite (wrapperDict d) ⟨D.elem, D.val, D.val⟩ := by
  have hw : ∀ {named a v}, Writes d named a v → Writes (wrapperDict d) named a v := fun hv =>
    ⟨hv.some, hv.noComma, hv.reads⟩
  refine ⟨fun a ha => ?_, fun a ha => ?_, fun a ha => ?_⟩
  · obtain ⟨⟨v, hv⟩, _⟩ := h.elem a ha
    exact ⟨⟨v, hw hv⟩, v, (hw hv).inside rfl⟩
  · obtain ⟨v, hv⟩ := h.val a ha
    exact ⟨v, hw hv⟩
  · obtain ⟨v, hv⟩ := h.val a ha
    exact ⟨_, (hw hv).item fun _ _ => rfl⟩

/-- `SpannedValue`, up to the location. -/
theorem c111_spanned [Env] {d : Dict α} {D : Domain α} (h : CanWrite d D) :
    CanWrite ((spannedDict d).map Spanned.value) D := by
  have hw : ∀ {named a v}, Writes d named a v → Writes ((spannedDict d).map Spanned.value) named a v := fun hv =>
    ⟨hv.some, hv.noComma, fun m hm rest sc hr u => by
      obtain ⟨u', h1⟩ := hv.reads m hm rest sc hr u
      refine ⟨u', ?_⟩
      simp only [Dict.map, spannedDict, M.map, h1, Res.map]⟩
  refine ⟨fun a ha => ?_, fun a ha => ?_, fun a ha => ?_⟩
  · obtain ⟨⟨v, hv⟩, w, hi⟩ := h.elem a ha
    refine ⟨⟨v, hw hv⟩, w, fun sc u => ?_⟩
    obtain ⟨s', h1, h2⟩ := hi sc u
    exact ⟨s', by simp only [Dict.map, spannedDict, M.map, h1, Res.map], h2⟩
  · obtain ⟨v, hv⟩ := h.val a ha
    exact ⟨v, hw hv⟩
  · obtain ⟨v, hv⟩ := h.item a ha
    refine ⟨v, hv.noComma, hv.start, fun n sp rest sc hr u => ?_⟩
    obtain ⟨u', h1⟩ := hv.reads n sp rest sc hr u
    exact ⟨u', by simp only [Dict.map, spannedDict, M.map, h1, Res.map]⟩

/-- `Flag`: it is set by its name, and not by leaving it out. -/
theorem c111_flag [Env] : CanWrite (flagDict.map Option.isSome) ⟨fun _ => False, fun _ => False, (· = true)⟩ := by
  refine ⟨fun _ h => h.elim, fun _ h => h.elim, ?_⟩
  rintro _ rfl
  refine ⟨[], (by intro t ht; cases ht), (by rintro ⟨_, _, _, _, h⟩; cases h), fun n sp rest sc hr u => ⟨u, ?_⟩⟩
  rcases hr with rfl | ⟨c, r, rfl, ⟨_, _, rfl⟩⟩ <;> rfl

/-- `Option`: in a list all values that are `None` or `Some` of a writable value; for a name only the latter, `None` by
leaving it out. -/
def Domain.option (D : Domain α) : Domain (Option α) :=
  ⟨fun o => ∀ a, o = some a → D.elem a, fun o => ∃ a, o = some a ∧ D.val a, fun o => ∃ a, o = some a ∧ D.val a⟩

theorem c111_option {d : Dict α} {D : Domain α} (h : CanWrite d D) : CanWrite (optionDict d) D.option := by
  have hv : ∀ o, D.option.val o → ∃ v, Writes (optionDict d) true o v := by
    rintro _ ⟨a, rfl, ha⟩
    obtain ⟨v, hv⟩ := h.val a ha
    refine ⟨v, hv.some, hv.noComma, fun m hm rest sc hr u => ?_⟩
    obtain ⟨u', h1⟩ := hv.reads m hm rest sc hr u
    cases m with
    | unnamed => cases hm
    | named sp => exact ⟨u', map_reads some h1⟩
  refine ⟨fun o ho => ?_, hv, fun o ho => ?_⟩
  · have hw : ∃ v, Writes (optionDict d) false o v := by
      cases o with
      | none =>
        refine ⟨[.ident "None".toList callSite], by simp, noComma_one rfl, fun m hm rest sc _ u => ⟨u, ?_⟩⟩
        cases m with
        | named sp => cases hm
        | unnamed => rfl
      | some a =>
        obtain ⟨_, v, hi⟩ := h.elem a (ho a rfl)
        refine ⟨[.ident "Some".toList callSite, .group .paren v callSite callSite], by simp, ?_, fun m hm rest sc _ u => ?_⟩
        · intro t ht
          simp only [List.mem_cons, List.not_mem_nil, or_false] at ht
          rcases ht with rfl | rfl <;> exact (isComma_eq_false_iff _).1 rfl
        · cases m with
          | named sp => cases hm
          | unnamed =>
            obtain ⟨s', h1, h2⟩ := hi callSite u
            obtain ⟨u', h3⟩ := delimited_atEnd (dl := .paren) (a := callSite) (rest := rest) (sc := sc) h1 h2 (by simp)
            exact ⟨u', map_reads some h3⟩
    obtain ⟨v, hw⟩ := hw
    exact ⟨⟨v, hw⟩, v, hw.inside rfl⟩
  · obtain ⟨v, hv⟩ := hv o ho
    exact ⟨_, hv.item fun _ _ => rfl⟩

end Deluxe
