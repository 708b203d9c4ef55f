import Verif.Lemmas.Pos
import Verif.Props.Collections
/-!
# C21, C22: arrays and tuples
-/
namespace Deluxe

/-! ## Specification -/

/-- The messages of a fatal error, if there is one. -/
def fatalMsgs : Option SynErr → List Msg
  | none => []
  | some e => e.toList

/-- The parser of component number `i` (there are only calls with `i < ds.length`). -/
def component {α : Type} (ds : List (Dict α)) (i : Nat) : M Stream α :=
  match ds[i]? with
  | some d => d.parse .unnamed
  | none => M.fail (.new callSite .unexpectedToken)

/-- An item in the place of component number `b.1`: it is read by that component's parser.  Items
after the last component are any tokens without comma. -/
def CompSeg {α : Type} (ds : List (Dict α)) (v rest : List Tok) (sc : Span)
    (b : Nat × Except SynErr α) : Prop :=
  (b.1 < ds.length ∧ ReadsAs (component ds b.1) v rest sc b.2) ∨ (ds.length ≤ b.1 ∧ NoComma v)

/-! ## Lemmas -/

theorem recover_ok {α : Type} {p : M Stream α} {s s' a} (h : recover p s = (.ok (.ok a), s')) :
    p s = (.ok a, s') := by
  simp only [recover] at h
  split at h <;> simp at h
  rename_i h'
  obtain ⟨rfl, rfl⟩ := h
  exact h'

theorem recover_of_ok {α : Type} {p : M Stream α} {s s' a} (h : p s = (.ok a, s')) :
    recover p s = (.ok (.ok a), s') := by
  simp only [recover, h]

theorem errMsgs_append {α : Type} (a b : List (Except SynErr α)) :
    errMsgs (a ++ b) = errMsgs a ++ errMsgs b := by
  induction a with
  | nil => rfl
  | cons x a ih => cases x <;> simp [errMsgs, ih]

theorem okVals_length {α : Type} {xs : List (Except SynErr α)} (h : errMsgs xs = []) :
    (okVals xs).length = xs.length := by
  induction xs with
  | nil => rfl
  | cons x xs ih =>
    cases x with
    | ok a => simpa [okVals] using ih (by simpa [errMsgs] using h)
    | error e => simp [errMsgs, SynErr.toList] at h

/-- Adds to an array. -/
def arrAdd {α : Type} (acc : Acc (List α × Nat)) (x : Except SynErr α) : Acc (List α × Nat) :=
  match x with
  | .ok a => { acc with val := (acc.val.1 ++ [a], acc.val.2) }
  | .error e => ⟨(acc.val.1, acc.val.2 + 1), acc.errs.pushSyn e⟩

theorem arrAdd_fold {α : Type} (xs : List (Except SynErr α)) (acc : Acc (List α × Nat)) :
    (xs.foldl arrAdd acc).val.1 = acc.val.1 ++ okVals xs ∧
      (xs.foldl arrAdd acc).val.1.length + (xs.foldl arrAdd acc).val.2 =
        acc.val.1.length + acc.val.2 + xs.length ∧
      (xs.foldl arrAdd acc).errs.toList = acc.errs.toList ++ errMsgs xs := by
  induction xs generalizing acc with
  | nil => simp [okVals, errMsgs]
  | cons x xs ih =>
    rw [List.foldl_cons, (ih _).2.1, (ih _).2.2, (ih _).1]
    cases x <;> simp [arrAdd, okVals, errMsgs] <;> omega

theorem arrayStep_pos {α : Type} (n : Nat) (p : M Stream α) (i : Nat) (k : Acc (List α × Nat))
    (s : Stream) (rest : List Stream) (h : k.val.1.length < n) :
    stepHead (arrayStep n p) (k, s :: rest) =
      posFunc (fun _ => recover p) (fun _ => arrAdd) i (k, s :: rest) := by
  rw [posFunc_cons]
  simp only [stepHead, arrayStep, recover]
  cases hp : p s with
  | mk r s' => cases r <;> simp [arrAdd, h]

/-- Adding a fatal error. -/
def addFatal (e : Errors) : Option SynErr → Errors
  | none => e
  | some x => e.pushSyn x

theorem addFatal_toList (e : Errors) (f : Option SynErr) :
    (addFatal e f).toList = e.toList ++ fatalMsgs f := by
  cases f <;> simp [addFatal, fatalMsgs]

/-- The array parser in terms of the reads. -/
theorem arrayFlat_reads [Env] {α : Type} (n : Nat) (d : Dict α) (m : Mode) (i : Nat)
    {l l' : List Stream} {rs fatal c}
    (h : PosReadsAll (fun _ => recover (d.parse .unnamed)) n 0 l rs fatal c l') :
    ∃ r, (arrayFlat n d).parse m i l = (r, l') ∧
      Collects r (okVals (rs.map (·.1))) (errMsgs (rs.map (·.1)) ++ fatalMsgs fatal ++
        if c < n then [⟨inputsSpan l', .arrayLen i n c⟩] else []) := by
  have hrun := pos_run (func := fun _ => stepHead (arrayStep n (d.parse .unnamed)))
    (I := fun i k => k.val.1.length + k.val.2 = i) (fun _ => arrAdd)
    (fun i k s rest hi hk => arrayStep_pos n _ i k s rest (by omega))
    (fun i k b hi hk => by cases b <;> simp only [arrAdd, List.length_append, List.length_cons, List.length_nil] <;> omega)
    (k := ⟨([], 0), Errors.new⟩) rfl h
  rw [foldPos_const] at hrun
  have hf := arrAdd_fold (rs.map (·.1)) ⟨([], 0), Errors.new⟩
  have hc := h.count
  have hle := h.le (Nat.zero_le n)
  generalize hacc : (rs.map (·.1)).foldl arrAdd ⟨([], 0), Errors.new⟩ = acc at hrun hf
  simp only [List.nil_append, List.length_nil, Nat.zero_add, List.length_map] at hf hc
  obtain ⟨hf1, hf2, hf3⟩ := hf
  rw [← hc] at hf2
  have hgot : ∀ errs : Errors, ((if c ≠ n then errs.push (inputsSpan l') (.arrayLen i n c) else errs) : Errors).toList =
      errs.toList ++ (if c < n then [⟨inputsSpan l', .arrayLen i n c⟩] else []) := by
    intro errs
    by_cases hcn : c = n
    · have : ¬ c < n := by omega
      simp [hcn]
    · have : c < n := by omega
      simp [hcn, this]
  have key : (arrayFlat n d).parse m i l =
      (match (if c ≠ n then (addFatal acc.errs fatal).push (inputsSpan l') (.arrayLen i n c)
          else addFatal acc.errs fatal : Errors).check with
        | .ok () => ((if acc.val.1.length = n then .ok acc.val.1 else .panic : Res (List α)), l')
        | .err e => (.err e, l')
        | .panic => (.panic, l')) := by
    simp only [arrayFlat]
    rw [hrun]
    cases fatal <;> simp only [posOut, hf2] <;> rfl
  generalize herrs : (if c ≠ n then (addFatal acc.errs fatal).push (inputsSpan l') (.arrayLen i n c)
          else addFatal acc.errs fatal : Errors) = errs at key
  have hl := hgot (addFatal acc.errs fatal)
  rw [herrs, addFatal_toList, hf3] at hl
  have hl' : errs.toList = errMsgs (rs.map (·.1)) ++ fatalMsgs fatal ++
        (if c < n then [⟨inputsSpan l', .arrayLen i n c⟩] else []) := by
    simpa [Errors.toList, Errors.new] using hl
  rw [← hl']
  rcases errs with ⟨_ | e⟩
  · have h0 : errMsgs (rs.map (·.1)) = [] ∧ ¬ c < n := by
      have : ([] : List Msg) = _ := hl'
      have := this.symm
      simp only [List.append_eq_nil_iff] at this
      refine ⟨this.1.1, fun hlt => ?_⟩
      simp [hlt] at this
    have hlen : acc.val.1.length = n := by
      rw [hf1, okVals_length h0.1, List.length_map, ← hc]; omega
    simp only [Errors.check, Errors.intoResult, hlen, if_true] at key
    refine ⟨_, key, ?_⟩
    rw [hf1]
    exact ⟨fun _ => rfl, fun h => absurd rfl h⟩
  · simp only [Errors.check, Errors.intoResult] at key
    exact ⟨_, key, fun h => by simp [Errors.toList, SynErr.toList] at h, fun _ => ⟨e, rfl, rfl⟩⟩

theorem collects_ok {γ : Type} {r : Res γ} {v w : γ} {msgs : List Msg} (h : Collects r v msgs)
    (hr : r = .ok w) : msgs = [] ∧ w = v := by
  by_cases hm : msgs = []
  · have := h.1 hm
    rw [hr] at this
    cases this
    exact ⟨hm, rfl⟩
  · obtain ⟨e, he, _⟩ := h.2 hm
    rw [hr] at he
    cases he

theorem collects_ne_panic {γ : Type} {r : Res γ} {v : γ} {msgs : List Msg} (h : Collects r v msgs) :
    r ≠ .panic := by
  by_cases hm : msgs = []
  · rw [h.1 hm]; simp
  · obtain ⟨e, he, _⟩ := h.2 hm
    rw [he]; simp

/-- A group whose content is read up to an optional comma is read like its content. -/
theorem delimited_atEnd {α : Type} {f : Mode → M (List Stream) α} {m : Mode} {dl : Delim}
    {inner : List Tok} {a b : Span} {rest : List Tok} {sc : Span} {u : Option Span} {r : Res α}
    {s' : Stream} (h : f m [⟨inner, b, u⟩] = (r, [s']))
    (hr : AtEnd s'.toks) (hp : r ≠ .panic) :
    ∃ u', parseDelimitedMetaItem dl f m ⟨.group dl inner a b :: rest, sc, u⟩ =
      (r, ⟨rest, sc, u'⟩) := by
  simp only [parseDelimitedMetaItem, parseDelimitedWith, withContent, enter, if_true, Bind.bind,
    M.bind, single, h, List.headD_cons]
  cases r with
  | panic => exact absurd rfl hp
  | err e => exact ⟨_, rfl⟩
  | ok v =>
    have := (c04_eof s').1 hr
    simp only [this, Pure.pure, M.pure]
    exact ⟨_, rfl⟩

/-- A group whose content is not read up to an optional comma is an error. -/
theorem delimited_leftover {α : Type} {f : Mode → M (List Stream) α} {m : Mode} {dl : Delim}
    {inner : List Tok} {a b : Span} {rest : List Tok} {sc : Span} {u : Option Span} {r : Res α}
    {s' : Stream} (h : f m [⟨inner, b, u⟩] = (r, [s']))
    (hr : ¬ AtEnd s'.toks) (hp : r ≠ .panic) :
    ∃ e u', parseDelimitedMetaItem dl f m ⟨.group dl inner a b :: rest, sc, u⟩ =
      (.err e, ⟨rest, sc, u'⟩) := by
  simp only [parseDelimitedMetaItem, parseDelimitedWith, withContent, enter, if_true, Bind.bind,
    M.bind, single, h, List.headD_cons]
  cases r with
  | panic => exact absurd rfl hp
  | err e => exact ⟨_, _, rfl⟩
  | ok v =>
    obtain ⟨e, s'', this⟩ : ∃ e s'', parseEof s' = (.err e, s'') := by
      cases hq : parseEof s' with
      | mk r s'' =>
        cases r with
        | ok a => exact absurd (parseEof_ok hq).1 hr
        | err e => exact ⟨e, s'', rfl⟩
        | panic => have := (parseEof_good s').1; rw [hq] at this; exact absurd rfl this
    simp only [this]
    exact ⟨_, _, rfl⟩

/-- Values that the plain readers give, from reads of the recovering ones. -/
theorem pos_plain {α : Type} {p : Nat → M Stream α} {n : Nat} {l l' : List Stream} {rs c}
    (h : PosReadsAll (fun i => recover (p i)) n 0 l rs none c l')
    (he : errMsgs (rs.map (·.1)) = []) :
    ∃ rs', PosReadsAll p n 0 l rs' none c l' ∧ okVals (rs.map (·.1)) = rs'.map (·.1) := by
  have hok := (errMsgs_eq_nil _).1 he
  obtain ⟨rs', h1, h2⟩ := h.of_recover (item := p) (f := Except.ok) (fun i s a s' h => recover_ok h)
    (fun x hx => hok x.1 (List.mem_map_of_mem hx))
  exact ⟨rs', h1, by rw [h2]; simp [okVals_map]⟩

theorem pos_recover {α : Type} {p : Nat → M Stream α} {n : Nat} {l l' : List Stream} {rs c}
    (h : PosReadsAll p n 0 l rs none c l') :
    ∃ rs', PosReadsAll (fun i => recover (p i)) n 0 l rs' none c l' ∧
      rs'.map (·.1) = rs.map (fun x => Except.ok x.1) :=
  ⟨_, h.map (f := Except.ok) (fun i s a s' h => recover_of_ok h), by simp [List.map_map, Function.comp_def]⟩

theorem errMsgs_ok {α β : Type} (rs : List β) (f : β → α) :
    errMsgs (rs.map fun x => Except.ok (f x)) = [] := by
  induction rs with
  | nil => rfl
  | cons x rs ih => simpa [errMsgs] using ih

/-- Items in order give positional reads of the recovering readers. -/
theorem posReads_uniform {α : Type} {p : M Stream α} {len : Nat} {l : List Stream}
    {bs : List (Except SynErr α)} (h : ItemsAll (ReadsAs p) l bs) :
    ∃ rs l', PosReadsAll (fun _ => recover p) len 0 l rs none (min len bs.length) l' ∧
      rs.map (·.1) = bs.take len ∧ (bs.length ≤ len → ∀ s ∈ l', AtEnd s.toks) := by
  obtain ⟨bs', hb, hn, hi⟩ := ItemsAll.number h 0
  obtain ⟨rs, l', h1, h2, h3⟩ := hi.posReads (len := len) (item := fun _ => recover p)
    (seg := fun v rest sc b => ReadsAs p v rest sc b.2)
    (fun v rest sc i b _ h1 h2 h3 u => recover_segSound p v rest sc b h1 h2 h3 u) 0 (Nat.zero_le _) hn
  have hl : bs'.length = bs.length := by rw [← hb, List.length_map]
  simp only [Nat.zero_add, hl, Nat.sub_zero, hb] at h1 h2 h3
  exact ⟨rs, l', h1, h2, h3⟩

theorem posReads_single {α : Type} {p : M Stream α} {len : Nat} (hpos : 0 < len) {inner : List Tok}
    {sc : Span} {bs : List (Except SynErr α)} (h : Items (ReadsAs p) sc inner bs) (u : Option Span) :
    ∃ rs s', PosReadsAll (fun _ => recover p) len 0 [⟨inner, sc, u⟩] rs none (min len bs.length) [s'] ∧
      rs.map (·.1) = bs.take len ∧ (bs.length ≤ len → AtEnd s'.toks) ∧
      (bs.length > len → ¬ AtEnd s'.toks) := by
  obtain ⟨bs', hb, hn, hi⟩ := Items.number h 0
  obtain ⟨rs, full, s', h1, h2, h3, _, _, h4⟩ := hi.posReads (len := len) (item := fun _ => recover p)
    (seg := fun v rest sc b => ReadsAs p v rest sc b.2)
    (fun v rest sc i b _ h1 h2 h3 u => recover_segSound p v rest sc b h1 h2 h3 u) 0 (Nat.zero_le _) hn u
  have hl : bs'.length = bs.length := by rw [← hb, List.length_map]
  simp only [Nat.zero_add, hl, Nat.sub_zero, hb] at h1 h2 h3 h4
  refine ⟨rs, s', ?_, h2, fun h => (h3 h).1, h4 hpos⟩
  cases full with
  | true => exact .full h1
  | false =>
    have := PosReadsAll.next h1 (.nil)
    simpa using this

/-! ## C21 -/

/-- C21: an array is returned exactly when the element parser reads exactly `n` elements, one after
the other with single commas between them, and it is these elements in order. -/
theorem c21_exact [Env] {α : Type} (n : Nat) (d : Dict α) (hd : Good (d.parse .unnamed)) (m : Mode)
    (i : Nat) (l l' : List Stream) (vs : List α) :
    (arrayFlat n d).parse m i l = (.ok vs, l') ↔
      ∃ rs, PosReadsAll (fun _ => d.parse .unnamed) n 0 l rs none n l' ∧ vs = rs.map (·.1) ∧
        vs.length = n := by
  constructor
  · intro h
    obtain ⟨rs, f, c, l1, hr⟩ := PosReadsAll.exists (len := n)
      (item := fun _ => recover (d.parse .unnamed)) (fun _ => recover_good hd) l 0
    obtain ⟨r, h1, h2⟩ := arrayFlat_reads n d m i hr
    rw [h] at h1
    simp only [Prod.mk.injEq] at h1
    obtain ⟨rfl, rfl⟩ := h1
    obtain ⟨h3, rfl⟩ := collects_ok h2 rfl
    simp only [List.append_eq_nil_iff] at h3
    have hc : c = n := by
      have := hr.le (Nat.zero_le n)
      by_cases hlt : c < n
      · simp [hlt] at h3
      · omega
    subst hc
    cases f with
    | some e => simp [fatalMsgs, SynErr.toList] at h3
    | none =>
      obtain ⟨rs', h4, h5⟩ := pos_plain hr h3.1.1
      refine ⟨rs', h4, h5, ?_⟩
      rw [okVals_length h3.1.1, hr.count]; simp
  · rintro ⟨rs, h1, rfl, hlen⟩
    obtain ⟨rs', h2, h3⟩ := pos_recover h1
    obtain ⟨r, h4, h5⟩ := arrayFlat_reads n d m i h2
    rw [h4, h3] at *
    have := h5.1 (by simp [errMsgs_ok, fatalMsgs])
    rw [this, okVals_map]

/-- C21: arrays never panic, whatever the streams hold. -/
theorem c21_never_panics [Env] {α : Type} (n : Nat) (d : Dict α) (hd : Good (d.parse .unnamed))
    (m : Mode) (i : Nat) (l : List Stream) : ((arrayFlat n d).parse m i l).1 ≠ .panic := by
  obtain ⟨rs, f, c, l1, hr⟩ := PosReadsAll.exists (len := n)
    (item := fun _ => recover (d.parse .unnamed)) (fun _ => recover_good hd) l 0
  obtain ⟨r, h1, h2⟩ := arrayFlat_reads n d m i hr
  rw [h1]
  exact collects_ne_panic h2

/-- C21: on comma separated elements, the result is the elements if there are enough and none fails;
otherwise an error with the messages of all failing elements in order, and one about the number of
elements if there are too few.  Elements after the `n`-th are not read. -/
theorem c21_elements [Env] {α : Type} (n : Nat) (d : Dict α) (m : Mode) (i : Nat) (l : List Stream)
    (bs : List (Except SynErr α)) (h : ItemsAll (ReadsAs (d.parse .unnamed)) l bs) :
    ∃ r l', (arrayFlat n d).parse m i l = (r, l') ∧ (i = 0 → (arrayDict n d).inline m l = (r, l')) ∧
      (bs.length ≤ n → ∀ s ∈ l', AtEnd s.toks) ∧
      Collects r (okVals (bs.take n)) (errMsgs (bs.take n) ++
        if bs.length < n then [⟨inputsSpan l', .arrayLen i n bs.length⟩] else []) := by
  obtain ⟨rs, l', h1, h2, h3⟩ := posReads_uniform (len := n) h
  obtain ⟨r, h4, h5⟩ := arrayFlat_reads n d m i h1
  refine ⟨r, l', h4, ?_, h3, ?_⟩
  · rintro rfl; exact h4
  · rw [h2] at h5
    simp only [fatalMsgs, List.append_nil] at h5
    have : (if min n bs.length < n then [(⟨inputsSpan l', .arrayLen i n (min n bs.length)⟩ : Msg)] else []) =
        if bs.length < n then [⟨inputsSpan l', .arrayLen i n bs.length⟩] else [] := by
      by_cases hb : bs.length < n
      · have : min n bs.length = bs.length := by omega
        simp [this]
      · have : min n bs.length = n := by omega
        simp [this, hb]
    rw [this] at h5
    exact h5

/-- C21: when the input is not a list of elements, what was found before is still reported: all
messages of failing elements, then the one about the unexpected token. -/
theorem c21_all_errors [Env] {α : Type} (n : Nat) (d : Dict α) (m : Mode) (i : Nat)
    (l l' : List Stream) (rs) (fatal : SynErr) (c : Nat)
    (h : PosReadsAll (fun _ => recover (d.parse .unnamed)) n 0 l rs (some fatal) c l') :
    ∃ e, (arrayFlat n d).parse m i l = (.err e, l') ∧
      errMsgs (rs.map (·.1)) ++ fatal.toList <+: e.toList := by
  obtain ⟨r, h1, h2⟩ := arrayFlat_reads n d m i h
  obtain ⟨e, rfl, he⟩ := h2.2 (by simp [fatalMsgs, SynErr.toList])
  exact ⟨e, h1, by rw [he]; exact ⟨_, rfl⟩⟩

/-- C21: in brackets there must be exactly `n` elements, with or without trailing comma. -/
theorem c21_bracketed [Env] {α : Type} (n : Nat) (hn : 0 < n) (d : Dict α) (m : Mode)
    (inner : List Tok) (a b : Span) (rest : List Tok) (sc : Span) (u : Option Span)
    (bs : List (Except SynErr α)) (h : Items (ReadsAs (d.parse .unnamed)) b inner bs) :
    ∃ r u', (arrayDict n d).parse m ⟨.group .bracket inner a b :: rest, sc, u⟩ = (r, ⟨rest, sc, u'⟩) ∧
      (r.isOk ↔ bs.length = n ∧ errMsgs bs = []) ∧
      (bs.length ≤ n → ∃ sp, Collects r (okVals bs) (errMsgs bs ++
        if bs.length < n then [⟨sp, .arrayLen 0 n bs.length⟩] else [])) := by
  obtain ⟨rs, s', h1, h2, h3, h4⟩ := posReads_single (len := n) hn h u
  obtain ⟨r, h5, h6⟩ := arrayFlat_reads n d .unnamed 0 h1
  rw [h2] at h6
  simp only [fatalMsgs, List.append_nil] at h6
  by_cases hle : bs.length ≤ n
  · obtain ⟨u', h7⟩ := delimited_atEnd (f := fun m => (arrayFlat n d).parse m 0) (dl := .bracket) (a := a)
      (rest := rest) (sc := sc) h5 (h3 hle) (collects_ne_panic h6)
    have hmin : min n bs.length = bs.length := by omega
    rw [hmin, List.take_of_length_le hle] at h6
    refine ⟨r, u', h7, ?_, fun _ => ⟨_, h6⟩⟩
    constructor
    · intro hok
      cases r with
      | ok v =>
        obtain ⟨h8, _⟩ := collects_ok h6 rfl
        simp only [List.append_eq_nil_iff] at h8
        refine ⟨?_, h8.1⟩
        by_cases hlt : bs.length < n
        · simp [hlt] at h8
        · omega
      | err e => simp [Res.isOk] at hok
      | panic => simp [Res.isOk] at hok
    · rintro ⟨h8, h9⟩
      rw [h6.1 (by simp [h8, h9])]
      rfl
  · obtain ⟨e, u', h7⟩ := delimited_leftover (f := fun m => (arrayFlat n d).parse m 0) (dl := .bracket) (a := a)
      (rest := rest) (sc := sc) h5 (h4 (by omega)) (collects_ne_panic h6)
    refine ⟨_, u', h7, ?_, fun h => absurd h hle⟩
    constructor
    · intro hok; simp [Res.isOk] at hok
    · rintro ⟨h8, _⟩; omega

/-- Non-trivial case: the tokens of two booleans. -/
def twoBools : List Tok :=
  [.ident "true".toList 1, .punct ',' false 2, .ident "false".toList 3, .punct ',' false 4]

theorem twoBools_items (sc : Span) : Items (ReadsAs (boolDict.parse .unnamed)) sc twoBools
    [.ok true, .ok false] :=
  .cons (v := [.ident "true".toList 1]) ⟨_, _, rfl⟩ (fun u => ⟨u, rfl⟩)
    (.cons (v := [.ident "false".toList 3]) ⟨_, _, rfl⟩ (fun u => ⟨u, rfl⟩) .nil)

example [Env] : ∃ u', (arrayDict 2 boolDict).parse .unnamed ⟨[.group .bracket twoBools 0 5], 9, none⟩ =
    (.ok [true, false], ⟨[], 9, u'⟩) := by
  obtain ⟨r, u', h1, _, h2⟩ := c21_bracketed 2 (by omega) boolDict .unnamed twoBools 0 5 [] 9 none _
    (twoBools_items 5)
  obtain ⟨sp, h3⟩ := h2 (by simp)
  exact ⟨u', by rw [h1, h3.1 (by simp [errMsgs])]; rfl⟩

/-! ## C22 -/

/-- The status after reading. -/
def statusOf {α : Type} : Except SynErr α → FieldStatus α
  | .ok a => .some a
  | .error _ => .parseError

/-- Adds to a tuple. -/
def tupAdd {α : Type} (i : Nat) (acc : Acc (List (FieldStatus α))) (x : Except SynErr α) :
    Acc (List (FieldStatus α)) :=
  ⟨acc.val.set i (statusOf x), match x with | .ok _ => acc.errs | .error e => acc.errs.pushSyn e⟩

theorem tupAdd_fold {α : Type} (xs : List (Except SynErr α)) : ∀ (pre : List (FieldStatus α)) (n : Nat)
    (errs : Errors), xs.length ≤ n →
    (foldPos tupAdd pre.length ⟨pre ++ List.replicate n .none, errs⟩ xs).val =
        pre ++ xs.map statusOf ++ List.replicate (n - xs.length) .none ∧
      (foldPos tupAdd pre.length ⟨pre ++ List.replicate n .none, errs⟩ xs).errs.toList =
        errs.toList ++ errMsgs xs := by
  induction xs with
  | nil => intro pre n errs _; simp [foldPos, errMsgs]
  | cons x xs ih =>
    intro pre n errs hn
    simp only [List.length_cons] at hn
    obtain ⟨k, rfl⟩ : ∃ k, n = k + 1 := ⟨n - 1, by omega⟩
    have := ih (pre ++ [statusOf x]) k (match x with | .ok _ => errs | .error e => errs.pushSyn e) (by omega)
    simp only [List.length_append, List.length_cons, List.length_nil, Nat.zero_add] at this
    have hset : (pre ++ List.replicate (k + 1) FieldStatus.none).set pre.length (statusOf x) =
        pre ++ [statusOf x] ++ List.replicate k .none := by
      rw [List.set_append_right _ _ (Nat.le_refl _)]
      simp [List.replicate_succ]
    simp only [foldPos, tupAdd, hset]
    constructor
    · rw [this.1]; simp
    · rw [this.2]
      cases x <;> simp [errMsgs]

theorem tupleStep_pos {α : Type} (ds : List (Dict α)) (i : Nat) (k : Acc (List (FieldStatus α)))
    (s : Stream) (rest : List Stream) (hi : i < ds.length) (h : k.val.length = ds.length) :
    stepHead (tupleStep (ds.map (·.parse .unnamed)) i) (k, s :: rest) =
      posFunc (fun i => recover (component ds i)) tupAdd i (k, s :: rest) := by
  rw [posFunc_cons]
  have h1 : (ds.map (·.parse .unnamed))[i]? = some (component ds i) := by
    simp [component, List.getElem?_eq_getElem hi]
  have h2 : k.val[i]? = some k.val[i] := List.getElem?_eq_getElem (by omega)
  simp only [stepHead, tupleStep, h1, h2, recover, FieldStatus.parseUnnamedItemWith]
  cases hp : component ds i s with
  | mk r s' => cases r <;> simp [tupAdd, statusOf]

theorem firstMissing_statuses {α : Type} (xs : List (Except SynErr α)) (k : Nat) : ∀ c,
    firstMissing (xs.map statusOf ++ List.replicate k .none) c =
      if k = 0 then none else some (c + xs.length) := by
  induction xs with
  | nil => intro c; cases k <;> simp [firstMissing, List.replicate_succ, FieldStatus.isNone]
  | cons x xs ih =>
    intro c
    have : (statusOf x).isNone = false := by cases x <;> rfl
    simp only [List.map_cons, List.cons_append, firstMissing, this, Bool.false_eq_true, ↓reduceIte, ih,
      List.length_cons]
    split <;> simp <;> omega

theorem unwrapAll_statuses {α : Type} (xs : List (Except SynErr α)) (h : errMsgs xs = []) :
    unwrapAll (xs.map statusOf) = .ok (okVals xs) := by
  induction xs with
  | nil => rfl
  | cons x xs ih =>
    cases x with
    | ok a => simp [unwrapAll, statusOf, FieldStatus.unwrap, okVals, ih (by simpa [errMsgs] using h), Res.map]
    | error e => simp [errMsgs, SynErr.toList] at h

theorem component_good {α : Type} {ds : List (Dict α)} (h : ∀ d ∈ ds, Good (d.parse .unnamed)) (i : Nat) :
    Good (component ds i) := by
  unfold component
  split
  · rename_i d hd; exact h d (List.mem_of_getElem? hd)
  · exact Good.fail _

/-- The tuple parser in terms of the reads. -/
theorem tupleFlat_reads [Env] {α : Type} (ds : List (Dict α)) (m : Mode) (i : Nat)
    {l l' : List Stream} {rs fatal c}
    (h : PosReadsAll (fun i => recover (component ds i)) ds.length 0 l rs fatal c l') :
    ∃ r, (tupleFlat ds).parse m i l = (r, l') ∧
      Collects r (okVals (rs.map (·.1))) (errMsgs (rs.map (·.1)) ++ fatalMsgs fatal ++
        if c < ds.length then [⟨inputsSpan l', .tupleLen ds.length c⟩] else []) := by
  have hrun := pos_run (func := fun i => stepHead (tupleStep (ds.map (·.parse .unnamed)) i))
    (I := fun i k => k.val.length = ds.length) tupAdd
    (fun i k s rest hi hk => tupleStep_pos ds i k s rest hi hk)
    (fun i k b hi hk => by simp [tupAdd, hk])
    (k := ⟨List.replicate ds.length .none, Errors.new⟩) (by simp) h
  have hc := h.count
  have hle := h.le (Nat.zero_le _)
  simp only [Nat.zero_add] at hc
  have hf := tupAdd_fold (rs.map (·.1)) [] ds.length Errors.new (by simp; omega)
  simp only [List.nil_append, List.length_nil, List.length_map] at hf
  generalize hacc : foldPos tupAdd 0 ⟨List.replicate ds.length .none, Errors.new⟩ (rs.map (·.1)) = acc at hrun hf
  obtain ⟨hf1, hf2⟩ := hf
  have hfm : firstMissing acc.val 0 = if c < ds.length then some c else none := by
    rw [hf1, firstMissing_statuses, ← hc]
    by_cases hlt : c < ds.length
    · have : ds.length - c ≠ 0 := by omega
      simp [hlt, this]; exact hc.symm
    · have : ds.length - c = 0 := by omega
      simp [hlt, this]
  have key : (tupleFlat ds).parse m i l =
      (match firstMissing acc.val 0 with
        | some i => (((addFatal acc.errs fatal).push (inputsSpan l') (.tupleLen ds.length i)).bail, l')
        | none =>
          match (addFatal acc.errs fatal).check with
          | .ok () => (unwrapAll acc.val, l')
          | .err e => (.err e, l')
          | .panic => (.panic, l')) := by
    simp only [tupleFlat]
    rw [hrun]
    cases fatal <;> simp only [posOut] <;> rfl
  have hl : (addFatal acc.errs fatal).toList = errMsgs (rs.map (·.1)) ++ fatalMsgs fatal := by
    rw [addFatal_toList, hf2]; simp [Errors.toList, Errors.new]
  rw [hfm] at key
  by_cases hlt : c < ds.length
  · simp only [hlt, if_true] at key ⊢
    generalize hee : (addFatal acc.errs fatal).push (inputsSpan l') (.tupleLen ds.length c) = ee at key
    have hl2 : ee.toList = errMsgs (rs.map (·.1)) ++ fatalMsgs fatal ++
        [⟨inputsSpan l', .tupleLen ds.length c⟩] := by
      rw [← hee, Errors.toList_push, hl]
    rcases ee with ⟨_ | e⟩
    · simp [Errors.toList] at hl2
    · simp only [Errors.bail, Errors.unwrapErr] at key
      refine ⟨_, key, fun h => ?_, fun _ => ⟨e, rfl, hl2⟩⟩
      simp at h
  · simp only [hlt, if_false, List.append_nil] at key ⊢
    generalize addFatal acc.errs fatal = ee at key hl
    rw [← hl]
    rcases ee with ⟨_ | e⟩
    · have h0 : errMsgs (rs.map (·.1)) = [] := by
        have : ([] : List Msg) = _ := hl
        exact (List.append_eq_nil_iff.1 this.symm).1
      have : ds.length - rs.length = 0 := by omega
      simp only [Errors.check, Errors.intoResult, hf1, this, List.replicate_zero, List.append_nil] at key
      rw [unwrapAll_statuses _ h0] at key
      exact ⟨_, key, fun _ => rfl, fun h => absurd rfl h⟩
    · simp only [Errors.check, Errors.intoResult] at key
      exact ⟨_, key, fun h => by simp [Errors.toList, SynErr.toList] at h, fun _ => ⟨e, rfl, rfl⟩⟩

/-- C22: a tuple is returned exactly when its components are read one after the other with single
commas between them, and it is their values in order, one per component. -/
theorem c22_exact [Env] {α : Type} (ds : List (Dict α)) (hd : ∀ d ∈ ds, Good (d.parse .unnamed))
    (m : Mode) (i : Nat) (l l' : List Stream) (vs : List α) :
    (tupleFlat ds).parse m i l = (.ok vs, l') ↔
      ∃ rs, PosReadsAll (component ds) ds.length 0 l rs none ds.length l' ∧ vs = rs.map (·.1) ∧
        vs.length = ds.length := by
  constructor
  · intro h
    obtain ⟨rs, f, c, l1, hr⟩ := PosReadsAll.exists (len := ds.length)
      (item := fun i => recover (component ds i)) (fun i => recover_good (component_good hd i)) l 0
    obtain ⟨r, h1, h2⟩ := tupleFlat_reads ds m i hr
    rw [h] at h1
    simp only [Prod.mk.injEq] at h1
    obtain ⟨rfl, rfl⟩ := h1
    obtain ⟨h3, rfl⟩ := collects_ok h2 rfl
    simp only [List.append_eq_nil_iff] at h3
    have hc : c = ds.length := by
      have := hr.le (Nat.zero_le _)
      by_cases hlt : c < ds.length
      · simp [hlt] at h3
      · omega
    subst hc
    cases f with
    | some e => simp [fatalMsgs, SynErr.toList] at h3
    | none =>
      obtain ⟨rs', h4, h5⟩ := pos_plain hr h3.1.1
      refine ⟨rs', h4, h5, ?_⟩
      rw [okVals_length h3.1.1, hr.count]; simp
  · rintro ⟨rs, h1, rfl, hlen⟩
    obtain ⟨rs', h2, h3⟩ := pos_recover h1
    obtain ⟨r, h4, h5⟩ := tupleFlat_reads ds m i h2
    rw [h4, h3] at *
    have := h5.1 (by simp [errMsgs_ok, fatalMsgs])
    rw [this, okVals_map]

/-- C22: tuples never panic, whatever the streams hold. -/
theorem c22_never_panics [Env] {α : Type} (ds : List (Dict α)) (hd : ∀ d ∈ ds, Good (d.parse .unnamed))
    (m : Mode) (i : Nat) (l : List Stream) : ((tupleFlat ds).parse m i l).1 ≠ .panic := by
  obtain ⟨rs, f, c, l1, hr⟩ := PosReadsAll.exists (len := ds.length)
    (item := fun i => recover (component ds i)) (fun i => recover_good (component_good hd i)) l 0
  obtain ⟨r, h1, h2⟩ := tupleFlat_reads ds m i hr
  rw [h1]
  exact collects_ne_panic h2

/-- C22: on comma separated items, the result is the component values if there are enough and none
fails; otherwise an error with the messages of all failing components in order, and one about the
number of components if there are too few. -/
theorem c22_components [Env] {α : Type} (ds : List (Dict α)) (m : Mode) (i : Nat) (l : List Stream)
    (bs : List (Nat × Except SynErr α)) (h : ItemsAll (CompSeg ds) l bs) (hnum : Numbered 0 bs) :
    ∃ r l', (tupleFlat ds).parse m i l = (r, l') ∧ (tupleDict ds).inline m l = (r, l') ∧
      (bs.length ≤ ds.length → ∀ s ∈ l', AtEnd s.toks) ∧
      Collects r (okVals ((bs.map (·.2)).take ds.length)) (errMsgs ((bs.map (·.2)).take ds.length) ++
        if bs.length < ds.length then [⟨inputsSpan l', .tupleLen ds.length bs.length⟩] else []) := by
  obtain ⟨rs, l', h1, h2, h3⟩ := h.posReads (len := ds.length)
    (item := fun i => recover (component ds i))
    (fun v rest sc i b hi h1 h2 h3 u => by
      rcases h3 with ⟨_, h3⟩ | ⟨h3, _⟩
      · exact recover_segSound _ v rest sc b h1 h2 h3 u
      · simp only at h3; omega) 0 (Nat.zero_le _) hnum
  simp only [Nat.zero_add, Nat.sub_zero] at h1 h2 h3
  obtain ⟨r, h4, h5⟩ := tupleFlat_reads ds m i h1
  refine ⟨r, l', h4, h4, h3, ?_⟩
  rw [h2] at h5
  simp only [fatalMsgs, List.append_nil] at h5
  have : (if min ds.length bs.length < ds.length then
      [(⟨inputsSpan l', .tupleLen ds.length (min ds.length bs.length)⟩ : Msg)] else []) =
      if bs.length < ds.length then [⟨inputsSpan l', .tupleLen ds.length bs.length⟩] else [] := by
    by_cases hb : bs.length < ds.length
    · have : min ds.length bs.length = bs.length := by omega
      simp [this]
    · have : min ds.length bs.length = ds.length := by omega
      simp [this, hb]
  rw [this] at h5
  exact h5

/-- C22: in parentheses there must be exactly as many items as components, with or without trailing
comma; then the result is the component values, or the messages of all failing components. -/
theorem c22_parenthesized [Env] {α : Type} (ds : List (Dict α)) (hpos : 0 < ds.length) (m : Mode)
    (inner : List Tok) (a b : Span) (rest : List Tok) (sc : Span) (u : Option Span)
    (bs : List (Nat × Except SynErr α)) (h : Items (CompSeg ds) b inner bs) (hnum : Numbered 0 bs) :
    ∃ r u', (tupleDict ds).parse m ⟨.group .paren inner a b :: rest, sc, u⟩ = (r, ⟨rest, sc, u'⟩) ∧
      (r.isOk ↔ bs.length = ds.length ∧ errMsgs (bs.map (·.2)) = []) ∧
      (bs.length = ds.length → Collects r (okVals (bs.map (·.2))) (errMsgs (bs.map (·.2)))) := by
  obtain ⟨rs, full, s', h1, h2, h3, _, _, h4⟩ := h.posReads (len := ds.length)
    (item := fun i => recover (component ds i))
    (fun v rest sc i b hi h1 h2 h3 u => by
      rcases h3 with ⟨_, h3⟩ | ⟨h3, _⟩
      · exact recover_segSound _ v rest sc b h1 h2 h3 u
      · simp only at h3; omega) 0 (Nat.zero_le _) hnum u
  simp only [Nat.zero_add, Nat.sub_zero] at h1 h2 h3 h4
  have h1' : PosReadsAll (fun i => recover (component ds i)) ds.length 0 [⟨inner, b, u⟩] rs none
      (min ds.length bs.length) [s'] := by
    cases full with
    | true => exact .full h1
    | false => simpa using PosReadsAll.next h1 .nil
  obtain ⟨r, h5, h6⟩ := tupleFlat_reads ds .unnamed 0 h1'
  rw [h2] at h6
  simp only [fatalMsgs, List.append_nil] at h6
  by_cases hle : bs.length ≤ ds.length
  · obtain ⟨u', h7⟩ := delimited_atEnd (f := fun m => (tupleFlat ds).parse m 0) (dl := .paren) (a := a)
      (rest := rest) (sc := sc) h5 (h3 hle).1 (collects_ne_panic h6)
    have hmin : min ds.length bs.length = bs.length := by omega
    rw [hmin, List.take_of_length_le (by simpa using hle)] at h6
    refine ⟨r, u', h7, ?_, ?_⟩
    · constructor
      · intro hok
        cases r with
        | ok v =>
          obtain ⟨h8, _⟩ := collects_ok h6 rfl
          simp only [List.append_eq_nil_iff] at h8
          refine ⟨?_, h8.1⟩
          by_cases hlt : bs.length < ds.length
          · simp [hlt] at h8
          · omega
        | err e => simp [Res.isOk] at hok
        | panic => simp [Res.isOk] at hok
      · rintro ⟨h8, h9⟩
        rw [h6.1 (by simp [h8, h9])]
        rfl
    · intro heq
      have : ¬ bs.length < ds.length := by omega
      simpa [this] using h6
  · obtain ⟨e, u', h7⟩ := delimited_leftover (f := fun m => (tupleFlat ds).parse m 0) (dl := .paren) (a := a)
      (rest := rest) (sc := sc) h5 (h4 hpos (by omega)) (collects_ne_panic h6)
    refine ⟨_, u', h7, ?_, fun h => absurd (Nat.le_of_eq h) hle⟩
    constructor
    · intro hok; simp [Res.isOk] at hok
    · rintro ⟨h8, _⟩; omega

/-- Non-trivial case: a boolean and a string, the second one missing its quotes. -/
example [Env] : ∃ e u', (tupleDict [boolDict.map Sum.inl, stringDict.map Sum.inr]).parse .unnamed
    ⟨[.group .paren [.ident "true".toList 1, .punct ',' false 2, .ident "x".toList 3] 0 4], 9, none⟩ =
      (.err e, ⟨[], 9, u'⟩) ∧ e.toList = [⟨3, .expected "string literal".toList⟩] := by
  obtain ⟨r, u', h1, _, h2⟩ := c22_parenthesized (α := Bool ⊕ Str)
    [boolDict.map Sum.inl, stringDict.map Sum.inr] (by simp) .unnamed _ 0 4 [] 9 none
    [(0, .ok (.inl true)), (1, .error (.new 3 (.expected "string literal".toList)))]
    (.cons (v := [.ident "true".toList 1]) (c := .punct ',' false 2) ⟨_, _, rfl⟩
      (.inl ⟨by simp, fun u => ⟨u, rfl⟩⟩)
      (.last (v := [.ident "x".toList 3]) (by simp)
        (.inl ⟨by simp, fun u => ⟨[.ident "x".toList 3], u, by simp [NoComma, Comma], rfl⟩⟩)))
    (by simp [Numbered, List.range_succ])
  obtain ⟨e, rfl, he⟩ := (h2 (by simp)).2 (by simp [errMsgs, SynErr.toList])
  exact ⟨e, u', h1, he⟩

end Deluxe
