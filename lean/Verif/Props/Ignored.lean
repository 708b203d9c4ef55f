import Verif.Props.Aliases
/-!
# C124: an item that is ignored is as if it was not written
-/
namespace Deluxe

variable {V : Type}

/-! ## Specification -/

/-- The same items, except that some whose key is one of `P` are left out.  Nothing is said about what follows their
keys, except that it ends at the next comma, nor about the other items. -/
inductive Dropped [Env] (P : Str → Prop) : List Tok → List Tok → Prop
  | same (ts : List Tok) : Dropped P ts ts
  | keep {v c r r'} : NoComma v → Comma c → Dropped P r r' → Dropped P (v ++ c :: r) (v ++ c :: r')
  | last {segs sp v vt} : KeyToks segs sp v vt → P (keyString segs) → NoComma vt → Dropped P v []
  | more {segs sp v vt c r r'} : KeyToks segs sp v vt → P (keyString segs) → NoComma vt → Comma c → Dropped P r r' →
      Dropped P (v ++ c :: r) r'

/-- The same for several lists, such as those of several attributes. -/
inductive DroppedAll [Env] (P : Str → Prop) : List Stream → List Stream → Prop
  | nil : DroppedAll P [] []
  | cons {ts ts' sc u l l'} : Dropped P ts ts' → DroppedAll P l l' → DroppedAll P (⟨ts, sc, u⟩ :: l) (⟨ts', sc, u⟩ :: l')

/-- The result, with all messages, is the same without these items. -/
def Ignores [Env] (P : Str → Prop) {α : Type} (q : M (List Stream) α) : Prop :=
  ∀ l l', DroppedAll P l l' → (q l).1 = (q l').1

/-! ## Items -/

section
variable [Env]

/-- A reader of items that takes the whole of an item whose key is one of `P`, and makes nothing of it. -/
structure Ignoring (P : Str → Prop) {β γ : Type} (view : β → Option γ) (p : M Stream β) : Prop where
  good : Good p
  local_ : Local p
  key : ∀ {segs sp v vt rest} (sc : Span) (u : Option Span), KeyToks segs sp v vt → P (keyString segs) → NoComma vt →
    Boundary rest → ∃ b, p ⟨v ++ rest, sc, u⟩ = (.ok b, ⟨rest, sc, u⟩) ∧ view b = none

/-- Two lists of which the same items are kept. -/
def SameKept {β γ : Type} (view : β → Option γ) (p : M Stream β) (s s' : Stream) : Prop :=
  ∃ rs rs' fatal s1 s1', Reads p s rs fatal s1 ∧ Reads p s' rs' fatal s1' ∧
    rs.filterMap (fun x => view x.1) = rs'.filterMap (fun x => view x.1)

theorem Dropped.reads {P : Str → Prop} {β γ : Type} {view : β → Option γ} {p : M Stream β} (hp : Ignoring P view p)
    {ts ts' : List Tok} (h : Dropped P ts ts') (sc : Span) (u : Option Span) :
    SameKept view p ⟨ts, sc, u⟩ ⟨ts', sc, u⟩ := by
  induction h generalizing u with
  | same ts =>
    obtain ⟨rs, fatal, s1, h⟩ := reads_exists hp.good ⟨ts, sc, u⟩
    exact ⟨_, _, _, _, _, h, h, rfl⟩
  | @keep v c r r' hn hc _ ih =>
    obtain ⟨res, v1, u1, hsuf, hl⟩ := hp.local_ v c sc u hn hc
    have hv := hn.suffix hsuf
    have g := (hp.good ⟨v ++ c :: r, sc, u⟩).1
    rw [hl] at g
    cases res with
    | panic => exact absurd rfl g
    | err e => exact ⟨_, _, _, _, _, .failItem (by simp) (hl r), .failItem (by simp) (hl r'), rfl⟩
    | ok b =>
      cases v1 with
      | nil =>
        obtain ⟨rs, rs', fatal, s1, s1', h1, h2, h3⟩ := ih u1
        exact ⟨_, _, _, _, _, .more (by simp) (hl r) rfl hc h1, .more (by simp) (hl r') rfl hc h2, by
          simp only [List.filterMap_cons, h3]⟩
      | cons x v1 =>
        have hx := hv x List.mem_cons_self
        exact ⟨_, _, _, _, _, .failSep (by simp) (hl r) rfl hx, .failSep (by simp) (hl r') rfl hx, rfl⟩
  | @last segs sp v vt h1 h2 h3 =>
    obtain ⟨b, e1, e2⟩ := hp.key sc u h1 h2 h3 (.inl rfl)
    rw [List.append_nil] at e1
    exact ⟨_, _, _, _, _, .last h1.nonempty e1 rfl, .done rfl, by simp [e2]⟩
  | @more segs sp v vt c r r' h1 h2 h3 hc _ ih =>
    obtain ⟨b, e1, e2⟩ := hp.key sc u h1 h2 h3 (.inr ⟨c, r, rfl, hc⟩)
    obtain ⟨rs, rs', fatal, s1, s1', g1, g2, g3⟩ := ih u
    exact ⟨_, _, _, _, _, .more (by simp) e1 rfl hc g1, g2, by simp [e2, g3]⟩

theorem DroppedAll.reads {P : Str → Prop} {β γ : Type} {view : β → Option γ} {p : M Stream β} (hp : Ignoring P view p)
    {l l' : List Stream} (h : DroppedAll P l l') :
    ∃ rs rs' fatal l1 l1', ReadsAll p l rs fatal l1 ∧ ReadsAll p l' rs' fatal l1' ∧
      rs.filterMap (fun x => view x.1) = rs'.filterMap (fun x => view x.1) := by
  induction h with
  | nil => exact ⟨_, _, _, _, _, .nil, .nil, rfl⟩
  | @cons ts ts' sc u l l' h _ ih =>
    obtain ⟨rs, rs', fatal, s1, s1', h1, h2, h3⟩ := h.reads hp sc u
    cases fatal with
    | some e => exact ⟨_, _, _, _, _, .fail h1, .fail h2, h3⟩
    | none =>
      obtain ⟨rs2, rs2', fatal, l1, l1', g1, g2, g3⟩ := ih
      exact ⟨_, _, _, _, _, .cons h1 g1, .cons h2 g2, by simp [h3, g3]⟩

theorem DroppedAll.fork {P : Str → Prop} {l l' : List Stream} (h : DroppedAll P l l') :
    DroppedAll P (forkInputs l) (forkInputs l') := by
  induction h with
  | nil => exact .nil
  | cons h _ ih => exact .cons h ih

/-- Readers that see the key first. -/
theorem keyed_ignoring {P : Str → Prop} {β γ : Type} {view : β → Option γ} {q : Str → Span → M Stream β}
    (hg : ∀ k sp, Good (q k sp)) (hl : ∀ k sp, Local (q k sp))
    (hq : ∀ k sp, P k → ∃ b, view b = none ∧ ∀ s, q k sp s = (.ok b, skipMetaItem s)) : Ignoring P view (keyed q) where
  good := keyed_good hg
  local_ := by
    have : keyed q = (parseAnyPath >>= fun p => q (keyString p.segs) p.span) := by
      funext s
      simp only [keyed, Bind.bind, M.bind]
      split <;> simp_all
    rw [this]
    exact parseAnyPath_local.bind fun p => hl _ _
  key sc u h1 hP hn hb := by
    obtain ⟨b, h2, h3⟩ := hq _ _ hP
    refine ⟨b, ?_, h2⟩
    rw [keyed_key q h1 hb, h3]
    simp only [skipMetaItem, skipToks_boundary hn hb]

/-! ## Structures -/

/-- What a structure keeps: everything but the items it says nothing about. -/
def SItem.kept (check : Bool) (allowed : List Str) : SItem V → Option (SItem V)
  | .field i n sp x => some (.field i n sp x)
  | .other k sp => if unknownMsgs check allowed k sp = [] then none else some (.other k sp)

theorem kept_msgs (check : Bool) (allowed : List Str) (bs : List (SItem V)) (seen : List Nat) :
    itemMsgs check allowed seen bs = itemMsgs check allowed seen (bs.filterMap (SItem.kept check allowed)) ∧
    ∀ i, given i bs = given i (bs.filterMap (SItem.kept check allowed)) := by
  induction bs generalizing seen with
  | nil => exact ⟨rfl, fun _ => rfl⟩
  | cons b bs ih =>
    cases b with
    | field i n sp x =>
      obtain ⟨e1, e2⟩ := ih (i :: seen)
      exact ⟨by simp only [List.filterMap_cons, SItem.kept, itemMsgs, e1], fun j => by
        simp only [List.filterMap_cons, SItem.kept, given, e2]⟩
    | other k sp =>
      obtain ⟨e1, e2⟩ := ih seen
      by_cases hu : unknownMsgs check allowed k sp = []
      · exact ⟨by simp only [List.filterMap_cons, SItem.kept, if_true, itemMsgs, e1, hu, List.nil_append], fun j => by
          simp only [List.filterMap_cons, SItem.kept, if_pos hu, given, e2]⟩
      · exact ⟨by simp only [List.filterMap_cons, SItem.kept, if_neg hu, itemMsgs, e1], fun j => by
          simp only [List.filterMap_cons, SItem.kept, if_neg hu, given, e2]⟩

/-- The keys are names of no field, and not reported as unknown. -/
structure Unowned (d : Fields V) (allowed : List Str) (pre : Str) (validate : Bool) (P : Str → Prop) : Prop where
  own : ∀ k, P k → ∀ f i, ¬ Owns d.fields pre k f i
  known : ∀ k, P k → d.allowUnknown = false → validate = true → k ∈ allowed

theorem structItem_ignoring {d : Fields V} (hg : FieldsGood d.fields) (hl : ∀ f ∈ d.fields, f.item.Local)
    {allowed : List Str} {pre : Str} {validate : Bool} {P : Str → Prop} (h : Unowned d allowed pre validate P) :
    Ignoring P (SItem.kept (!d.allowUnknown && validate) allowed) (structItem d.fields pre) := by
  refine { (keyed_ignoring (P := P) (view := SItem.kept (!d.allowUnknown && validate) allowed)
    (q := structValue d.fields pre) (fun k sp => ?_) (fun k sp => ?_) (fun k sp hP => ?_)) with }
  · unfold structValue
    split
    · rename_i f i heq
      have ho := (owner_some _ _ _ _ _).1 heq
      exact Good.map _ (recover_good (hg.named f ho.mem.1 ho.mem.2.1 _ _))
    · exact fun s => ⟨by simp, skipMetaItem_adv s⟩
  · unfold structValue
    split
    · rename_i f i heq
      have ho := (owner_some _ _ _ _ _).1 heq
      exact (recover_local ((hl f ho.mem.1).named _ _)).map _
    · exact skip_local _
  · refine ⟨.other k sp, ?_, fun s => ?_⟩
    · have : unknownMsgs (!d.allowUnknown && validate) allowed k sp = [] := by
        unfold unknownMsgs
        by_cases hc : d.allowUnknown = false ∧ validate = true
        · simp [h.known k hP hc.1 hc.2]
        · have : (!d.allowUnknown && validate) = false := by
            cases hu : d.allowUnknown <;> cases hv : validate <;> simp_all
          simp [this]
      simp only [SItem.kept, if_pos this]
    · unfold structValue
      rw [(owner_none _ _ _).2 (h.own k hP)]

theorem flatOuts_ignores {fs : List (Field V)} {pre : Str} {k : Span} {allowed : List Str} {P : Str → Prop}
    (h : ∀ f ∈ fs, f.flatParsable = true → Ignores P (f.flatCall pre k allowed)) {l l' : List Stream}
    (hr : DroppedAll P l l') : flatOuts pre k allowed l fs = flatOuts pre k allowed l' fs := by
  induction fs with
  | nil => rfl
  | cons f fs ih =>
    simp only [flatOuts]
    rw [ih fun g hg => h g (List.mem_cons_of_mem _ hg)]
    congr 1
    split
    · rename_i hp
      have hb := h f List.mem_cons_self hp
      split
      · rw [hb _ _ hr.fork]
      · rw [hb _ _ hr]
    · rfl

/-- **C124.**  The result of a structure, with all its messages, is the same without the items whose keys are names of
none of its fields and are not reported, for any input.  Its flat fields are asked to ignore them too. -/
theorem c124_struct (d : Fields V) (hg : FieldsGood d.fields) (hl : ∀ f ∈ d.fields, f.item.Local) (allowed : List Str)
    (k : Span) (pre : Str) (validate : Bool) {P : Str → Prop} (h : Unowned d allowed pre validate P)
    (hfl : ∀ f ∈ d.fields, f.flatParsable = true → Ignores P (f.flatCall pre k allowed)) :
    Ignores P (namedFlat d allowed (.named k) pre validate) := by
  intro l l' hr
  have hr' : DroppedAll P (if d.fields.any (·.flatParsable) then forkInputs l else l)
      (if d.fields.any (·.flatParsable) then forkInputs l' else l') := by
    split
    · exact hr.fork
    · exact hr
  obtain ⟨rs, rs', fatal, l1, l1', h1, h2, h3⟩ := hr'.reads (structItem_ignoring hg hl h)
  obtain ⟨e, x, q1, q2, -⟩ := namedFlat_reads d hg allowed (.named k) pre validate h1
  obtain ⟨e', x', q1', q2', -⟩ := namedFlat_reads d hg allowed (.named k) pre validate h2
  have hk1 := kept_msgs (!d.allowUnknown && validate) allowed (rs.map (·.1))
  have hk2 := kept_msgs (!d.allowUnknown && validate) allowed (rs'.map (·.1))
  simp only [List.filterMap_map, Function.comp_def] at hk1 hk2
  have hs : flatSlots d allowed pre k l (rs.map (·.1)) = flatSlots d allowed pre k l' (rs'.map (·.1)) := by
    unfold flatSlots itemSlots
    rw [flatOuts_ignores hfl hr]
    congr 2
    funext i
    rw [(hk1 []).2 i, (hk2 []).2 i, h3]
  have hm : flatMsgs d allowed pre k l = flatMsgs d allowed pre k l' := by
    unfold flatMsgs
    rw [flatOuts_ignores hfl hr]
  have hk : ∀ l, (Mode.named k).toFullSpan l = k := fun _ => rfl
  have he : e = e' := by
    apply Errors.eq_of_toList
    rw [q2, q2']
    simp only [hk]
    rw [hs, hm, (hk1 []).1, (hk2 []).1, h3]
  rw [q1, q1', he]
  simp only [hk]
  rw [hs]

/-! ## Append and rest fields -/

omit [Env] in
theorem foldl_onSome {κ β : Type} (g : κ → β → κ) (bs : List (Option β)) (k : κ) :
    bs.foldl (onSome g) k = (bs.filterMap id).foldl g k := by
  induction bs generalizing k with
  | nil => rfl
  | cons b bs ih => cases b <;> simp [onSome, ih]

/-- A loop over items of which the same are kept ends alike. -/
theorem fold_ignores {P : Str → Prop} {β κ : Type} {p : M Stream (Option β)} (hp : Ignoring P id p) (g : κ → β → κ) (k : κ)
    {l l' : List Stream} (hr : DroppedAll P l l') :
    ∃ r k' l1 l1', forStreams (itemLoop (foldStep p fun k b _ _ => onSome g k b)) (k, l) = (r, (k', l1)) ∧
      forStreams (itemLoop (foldStep p fun k b _ _ => onSome g k b)) (k, l') = (r, (k', l1')) := by
  obtain ⟨rs, rs', fatal, l1, l1', h1, h2, h3⟩ := hr.reads hp
  refine ⟨stopped fatal, foldReads (fun k b _ _ => onSome g k b) k rs, l1, l1',
    (fold_iff hp.good _ _ _ _ _ _).2 ⟨rs, fatal, h1, rfl, rfl⟩, (fold_iff hp.good _ _ _ _ _ _).2 ⟨rs', fatal, h2, rfl, ?_⟩⟩
  rw [foldReads_map, foldReads_map, foldl_onSome, foldl_onSome, List.filterMap_map, List.filterMap_map]
  exact congrArg _ h3

theorem appendItem_ignoring {α : Type} {p : Str → Span → M Stream α} (hg : ∀ k sp, Good (p k sp))
    (hl : ∀ k sp, Local (p k sp)) {names : List Str} {P : Str → Prop} (h : ∀ k, P k → k ∉ names) :
    Ignoring P id (appendItem names p) := by
  refine keyed_ignoring (fun k sp => ?_) (fun k sp => ?_) (fun k sp hP => ?_)
  · split
    · exact Good.map _ (spanItem_good (hg _ _))
    · exact skipItem_good _
  · split
    · exact (spanItem_local (hl _ _)).map _
    · exact skip_local _
  · rw [if_neg (h k hP)]
    exact ⟨none, rfl, fun _ => rfl⟩

/-- **C124.**  A sequence with `append` ignores the items of other names. -/
theorem c124_append_sequence {α : Type} (d : Dict α) (hg : ∀ n sp, Good (d.named n sp)) (hl : ∀ n sp, Local (d.named n sp))
    (names : List Str) {P : Str → Prop} (h : ∀ k, P k → k ∉ names) : Ignores P (seqAppend d names) := by
  intro l l' hr
  simp only [seqAppend]
  rw [appendStep_eq d.named names pushBack (fun k b => seqAdd k b.1) (fun _ _ => seqSpanStep_eq _)]
  obtain ⟨r, k', l1, l1', h1, h2⟩ := fold_ignores (appendItem_ignoring hg hl h)
    (fun k (b : Except SynErr α × Span) => seqAdd k b.1) ⟨[], Errors.new⟩ hr
  simp only [runAccPush, h1, h2]
  cases r <;> rfl

/-- **C124.**  So does a set. -/
theorem c124_append_set {α : Type} [DecidableEq α] (d : Dict α) (hg : ∀ n sp, Good (d.named n sp))
    (hl : ∀ n sp, Local (d.named n sp)) (names : List Str) {P : Str → Prop} (h : ∀ k, P k → k ∉ names) :
    Ignores P (setAppend d names) := by
  intro l l' hr
  simp only [setAppend]
  rw [appendStep_eq d.named names setInsert setAdd (fun _ _ => setStep_eq _)]
  obtain ⟨r, k', l1, l1', h1, h2⟩ := fold_ignores (appendItem_ignoring hg hl h) setAdd ⟨[], Errors.new⟩ hr
  simp only [runAcc, h1, h2]
  cases r <;> rfl

/-- **C124.**  A map with `rest` ignores the items of the names it is told to leave out. -/
theorem c124_rest {κ ν : Type} [DecidableEq κ] (kd : Dict κ) (keyStr : κ → Str) (vd : Dict ν)
    (hk : Good (kd.parse .unnamed)) (hv : ∀ n sp, Good (vd.named n sp)) (lk : Local (kd.parse .unnamed))
    (lv : ∀ n sp, Local (vd.named n sp)) (hkey : ReadsKeys kd keyStr) (exclude : List Str) {P : Str → Prop}
    (h : ∀ k, P k → k ∈ exclude) : Ignores P (mapRest kd keyStr vd exclude) := by
  intro l l' hr
  have hp : Ignoring P id (entryItem (kd.parse .unnamed) keyStr vd.named exclude id) := by
    refine ⟨entryItem_good hk hv exclude (after := id) fun s => Adv.refl s, entryItem_local lk lv exclude, ?_⟩
    intro segs sp v vt rest sc u h1 hP hn hb
    obtain ⟨key, e1, e2⟩ := hkey sc u h1 hb
    refine ⟨none, ?_, rfl⟩
    simp only [entryItem, e1, e2, if_pos (h _ hP), skipMetaItem, skipToks_boundary hn hb]
  simp only [mapRest, restStep_eq]
  obtain ⟨r, k', l1, l1', h1, h2⟩ := fold_ignores hp mapAdd ⟨[], Errors.new⟩ hr
  simp only [runAcc, h1, h2]
  cases r <;> rfl

/-! ## Structures as they are derived -/

/-- The parsers of `append`, `rest` and `flatten` fields that deluxe offers or derives, in any nesting, for which the
keys in question are none of their names. -/
inductive PlainIgnores (P : Str → Prop) : {α : Type} → M (List Stream) α → Prop
  | appendSeq {α} (d : Dict α) (names : List Str) : (∀ n sp, Good (d.named n sp)) → (∀ n sp, Local (d.named n sp)) →
      (∀ k, P k → k ∉ names) → PlainIgnores P (seqAppend d names)
  | appendSet {α} [DecidableEq α] (d : Dict α) (names : List Str) : (∀ n sp, Good (d.named n sp)) →
      (∀ n sp, Local (d.named n sp)) → (∀ k, P k → k ∉ names) → PlainIgnores P (setAppend d names)
  | rest {κ ν} [DecidableEq κ] (kd : Dict κ) (keyStr : κ → Str) (vd : Dict ν) (exclude : List Str) :
      Good (kd.parse .unnamed) → (∀ n sp, Good (vd.named n sp)) → Local (kd.parse .unnamed) →
      (∀ n sp, Local (vd.named n sp)) → ReadsKeys kd keyStr → (∀ k, P k → k ∈ exclude) →
      PlainIgnores P (mapRest kd keyStr vd exclude)
  | struct {W} (d : StructDef W) (k : Span) (pre : Str) (validate : Bool) : FieldsGood d.fields →
      (∀ f ∈ d.fields, f.item.Local) → Unowned d.data (Field.fieldNames d.fields) pre validate P →
      (∀ f ∈ d.fields, f.flatParsable = true → PlainIgnores P (f.flatCall pre k (Field.fieldNames d.fields))) →
      PlainIgnores P (d.flatNamed.parse (.named k) pre validate)
  | embed {α β} {q : M (List Stream) α} (f : α → β) : PlainIgnores P q → PlainIgnores P (q.mapRes (·.map f))

/-- **C124.**  They all ignore them. -/
theorem c124_every_flat {P : Str → Prop} {α : Type} {q : M (List Stream) α} (h : PlainIgnores P q) : Ignores P q := by
  induction h with
  | appendSeq d names h1 h2 h3 => exact c124_append_sequence d h1 h2 names h3
  | appendSet d names h1 h2 h3 => exact c124_append_set d h1 h2 names h3
  | rest kd keyStr vd exclude h1 h2 h3 h4 h5 h6 => exact c124_rest kd keyStr vd h1 h2 h3 h4 h5 exclude h6
  | struct d k pre validate h1 h2 h3 _ ih =>
    intro l l' hr
    have := c124_struct d.data h1 h2 (Field.fieldNames d.fields) k pre validate h3 ih l l' hr
    exact congrArg (runAndThens d.andThens) this
  | embed f _ ih => exact fun l l' hr => congrArg (Res.map f) (ih l l' hr)

theorem PlainIgnores.whole {P : Str → Prop} {α : Type} {q : M (List Stream) α} (h : PlainIgnores P q) : Whole q := by
  induction h with
  | appendSeq d names h1 _ => exact fun l v l' h => (c26_only_sequence d h1 names l l' v h).elim fun _ h => h.2.2
  | appendSet d names h1 _ => exact fun l v l' h => (c26_only_set d h1 names l l' v h).elim fun _ h => h.2.2.2
  | rest kd keyStr vd exclude h1 h2 _ _ _ =>
    exact fun l v l' h => (c27_only_entries kd keyStr vd h1 h2 exclude l l' v h).elim fun _ h => h.2.2.2
  | struct d k pre validate h1 _ _ _ ih =>
    refine (namedFlat_whole d.data h1 (Field.fieldNames d.fields) k pre validate ih).mapped ?_
    intro r y h
    cases r with
    | ok x => exact ⟨x, rfl⟩
    | err e => cases h
    | panic => cases h
  | embed f _ ih =>
    refine ih.mapped ?_
    intro r y h
    cases r with
    | ok x => exact ⟨x, rfl⟩
    | err e => cases h
    | panic => cases h

/-- **C124.**  A structure gives the same, values or messages, without the items it ignores: as the items of attributes,
in `name(…)` and in braces. -/
theorem c124_items (d : StructDef V) (ha : d.Accepted) (ht : d.isTransparent = false) (hs : d.shape = .named)
    (hg : d.FieldsFine) (hl : ∀ f ∈ d.fields, f.item.Local) (k : Span) {P : Str → Prop}
    (h : Unowned d.data (Field.fieldNames d.fields) [] (!d.acceptsAll) P)
    (hfl : ∀ f ∈ d.fields, f.flatParsable = true → PlainIgnores P (f.flatCall [] k (Field.fieldNames d.fields))) :
    (∀ l l', DroppedAll P l l' → (d.dict.inline (.named k) l).1 = (d.dict.inline (.named k) l').1) ∧
    (∀ ts ts', Dropped P ts ts' → ∀ a b rest sc u,
      (d.dict.parse (.named k) ⟨.group .brace ts a b :: rest, sc, u⟩).1 =
        (d.dict.parse (.named k) ⟨.group .brace ts' a b :: rest, sc, u⟩).1 ∧
      ∀ n, (d.dict.named n k ⟨.group .paren ts a b :: rest, sc, u⟩).1 =
        (d.dict.named n k ⟨.group .paren ts' a b :: rest, sc, u⟩).1) := by
  have hp : PlainIgnores P (d.flatNamed.parse (.named k) [] (!d.acceptsAll)) :=
    .struct d k [] _ ⟨fun f hf _ => (hg.item f hf).named, fun f hf => (hg.item f hf).missing, hg.flat hs⟩ hl h hfl
  have hb := c124_every_flat hp
  have hi : ∀ mode, d.dict.inline mode = d.flatNamed.parse mode [] (!d.acceptsAll) := by
    intro mode
    simp only [StructDef.dict, ht, hs]
    rfl
  have key : ∀ dl ts ts', Dropped P ts ts' → ∀ a b rest sc u,
      (parseDelimitedMetaItem dl (fun mode => d.flatNamed.parse mode [] (!d.acceptsAll)) (.named k)
        ⟨.group dl ts a b :: rest, sc, u⟩).1 =
      (parseDelimitedMetaItem dl (fun mode => d.flatNamed.parse mode [] (!d.acceptsAll)) (.named k)
        ⟨.group dl ts' a b :: rest, sc, u⟩).1 := by
    intro dl ts ts' hr a b rest sc u
    have h1 := hb [⟨ts, b, u⟩] [⟨ts', b, u⟩] (.cons hr .nil)
    obtain ⟨r, s1, e1⟩ := one_left (d.flatNamed_good ha ht hs hg (.named k) [] (!d.acceptsAll)) ⟨ts, b, u⟩
    obtain ⟨r', s1', e1'⟩ := one_left (d.flatNamed_good ha ht hs hg (.named k) [] (!d.acceptsAll)) ⟨ts', b, u⟩
    rw [e1, e1'] at h1
    subst h1
    simp only [parseDelimitedMetaItem, parseDelimitedWith, withContent, enter, if_true, Bind.bind, M.bind, single, e1, e1',
      List.headD_cons]
    cases r with
    | panic => rfl
    | err e => rfl
    | ok v =>
      have w1 := hp.whole _ _ _ e1 s1 List.mem_cons_self
      have w2 := hp.whole _ _ _ e1' s1' List.mem_cons_self
      have z1 := (c04_eof s1).1 (.inl w1)
      have z2 := (c04_eof s1').1 (.inl w2)
      simp only [z1, z2]
      rfl
  refine ⟨fun l l' hr => by rw [hi]; exact hb l l' hr, fun ts ts' hr a b rest sc u => ⟨?_, fun n => ?_⟩⟩
  · have hd : d.dict.parse (.named k) = parseDelimitedMetaItem .brace
        (fun mode => d.flatNamed.parse mode [] (!d.acceptsAll)) (.named k) := by
      simp only [StructDef.dict, ht, hs]
      rfl
    rw [hd]
    exact key .brace ts ts' hr a b rest sc u
  · have hd : ∀ ts, d.dict.named n k ⟨.group .paren ts a b :: rest, sc, u⟩ = parseDelimitedMetaItem .paren
        (fun mode => d.flatNamed.parse mode [] (!d.acceptsAll)) (.named k) ⟨.group .paren ts a b :: rest, sc, u⟩ := by
      intro ts
      simp only [StructDef.dict, ht, hs]
      rfl
    rw [hd, hd]
    exact key .paren ts ts' hr a b rest sc u

/-- The flat fields that deluxe offers, other than those with `rest`, which take the unknown items. -/
inductive FlatKnown (f : Field V) : Prop
  | appendSeq {α : Type} (d : Dict α) (g : List α → V) : f.append.getD false = true → f.isFlatten = false →
      (∀ names, f.appendP names = (seqAppend d names).mapRes (·.map g)) → d.Good → d.Local → FlatKnown f
  | appendSet {α : Type} [DecidableEq α] (d : Dict α) (g : List α → V) : f.append.getD false = true → f.isFlatten = false →
      (∀ names, f.appendP names = (setAppend d names).mapRes (·.map g)) → d.Good → d.Local → FlatKnown f
  | flatten {W : Type} (d : StructDef W) (g : List W → V) : f.append.getD false = false → f.rest.getD false = false →
      f.isFlatten = true → (∀ p, f.flatten.bind (·.pre) = some p → p ≠ [] ∧ endsColon2 p = false) →
      f.flatNamed.parse = (fun m pre v => (d.flatNamed.parse m pre v).mapRes (·.map g)) →
      f.flatNamed.fieldNames = Field.fieldNames d.fields → FieldsGood d.fields →
      (∀ h ∈ d.fields, h.item.Local) → d.fields.all (fun h => !h.isFlat) = true → FlatKnown f

/-- **C124.**  With `allow_unknown_fields` all items whose keys are none of the names of the structure, those of its
flattened fields among them, are as if they were not written. -/
theorem c124_unknown (d : StructDef V) (ha : d.Accepted) (ht : d.isTransparent = false) (hs : d.shape = .named)
    (hg : d.FieldsFine) (hl : ∀ f ∈ d.fields, f.item.Local) (k : Span) (hu : d.data.allowUnknown = true)
    (hfl : ∀ f ∈ d.fields, f.flatParsable = true → FlatKnown f) :
    (∀ l l', DroppedAll (· ∉ Field.fieldNames d.fields) l l' →
      (d.dict.inline (.named k) l).1 = (d.dict.inline (.named k) l').1) ∧
    (∀ ts ts', Dropped (· ∉ Field.fieldNames d.fields) ts ts' → ∀ a b rest sc u,
      (d.dict.parse (.named k) ⟨.group .brace ts a b :: rest, sc, u⟩).1 =
        (d.dict.parse (.named k) ⟨.group .brace ts' a b :: rest, sc, u⟩).1 ∧
      ∀ n, (d.dict.named n k ⟨.group .paren ts a b :: rest, sc, u⟩).1 =
        (d.dict.named n k ⟨.group .paren ts' a b :: rest, sc, u⟩).1) := by
  refine c124_items d ha ht hs hg hl k ⟨fun key hk f i ho => ?_, fun key _ h => ?_⟩ fun f hf hp => ?_
  · obtain ⟨m, hm, h1, h2, h3, -⟩ := ho
    refine hk ((c39_names _ _).2 ⟨f, List.mem_of_getElem? h1, h2.byName.1, .inr (.inr ⟨h2.byName.2.1, ?_⟩)⟩)
    rw [hm]
    exact h3
  · rw [hu] at h
    cases h
  · have hpar : f.isParsable = true := by
      simp only [Field.flatParsable, Bool.and_eq_true] at hp
      exact hp.2
    have happ : f.isFlatten = false → ∀ key, key ∉ Field.fieldNames d.fields → key ∉ joinPaths [] f.idents := by
      intro hnf key hk h
      rw [joinPaths_keys (.inl rfl)] at h
      refine hk ((c39_names _ _).2 ⟨f, hf, hpar, .inr (.inr ⟨hnf, ?_⟩)⟩)
      simpa [Field.keys] using h
    cases hfl f hf hp with
    | appendSeq dd g h1 h2 h3 h4 h5 =>
      simp only [Field.flatCall, h1, if_true, h3]
      exact .embed g (.appendSeq dd _ h4.named h5.named (happ h2))
    | appendSet dd g h1 h2 h3 h4 h5 =>
      simp only [Field.flatCall, h1, if_true, h3]
      exact .embed g (.appendSet dd _ h4.named h5.named (happ h2))
    | flatten dd g h1 h2 h3 h4 h5 h6 h7 h8 h9 =>
      simp only [Field.flatCall, h1, h2, Bool.false_eq_true, if_false, h5]
      refine .embed g (.struct dd k _ _ h7 h8 ⟨fun key hk h i ho => ?_, fun _ _ _ h => by cases h⟩ fun h hh hpar => ?_)
      · obtain ⟨m, hm, o1, o2, o3, -⟩ := ho
        have hmn : m ∈ f.flatNamed.fieldNames := by
          rw [h6]
          exact (c39_names _ _).2 ⟨h, List.mem_of_getElem? o1, o2.byName.1, .inr (.inr ⟨o2.byName.2.1, o3⟩)⟩
        refine hk ((c39_names _ _).2 ⟨f, hf, hpar, ?_⟩)
        rcases hfl : f.flatten with _ | ⟨_ | _, _ | p⟩
        · simp [Field.isFlatten, hfl] at h3
        · simp [Field.isFlatten, hfl] at h3
        · simp [Field.isFlatten, hfl] at h3
        · refine .inl ⟨m, hmn, rfl, ?_⟩
          simpa [hfl] using hm
        · refine .inr (.inl ⟨m, hmn, p, rfl, ?_⟩)
          obtain ⟨p1, p2⟩ := h4 p (by simp [hfl])
          have p3 : p.isEmpty = false := by cases p <;> simp_all
          simpa [hfl, joinPrefix, joinPath, p2, p3] using hm
      · have := List.all_eq_true.1 h9 h hh
        simp only [Field.flatParsable, Bool.and_eq_true] at hpar
        simp [hpar.1] at this

/-! ## Examples -/

/-- The structure `aliased`, with `#[deluxe(allow_unknown_fields)]`. -/
def lenient : StructDef (List Bool) := { aliased with allowUnknown := some true }

/-- C124: the conditions are met, and items with unknown keys can be left out. -/
example : lenient.Accepted ∧ lenient.isTransparent = false ∧ lenient.shape = .named ∧ lenient.FieldsFine ∧
    (∀ f ∈ lenient.fields, f.item.Local) ∧ lenient.data.allowUnknown = true ∧
    (∀ f ∈ lenient.fields, f.flatParsable = true → FlatKnown f) ∧
    Dropped (· ∉ Field.fieldNames lenient.fields)
      [.ident ['q'] 1, .punct ',' false 2, .ident ['z'] 3, .punct '=' false 7, .ident ['a'] 8, .punct ',' false 4, .ident ['y'] 5]
      [.ident ['q'] 1, .punct ',' false 2, .ident ['y'] 5] := by
  have hloc : (boolDict.map fun b => [b]).Local :=
    ⟨fun m => (c56_bool.parse m).map _, fun n sp => (c56_bool.named n sp).map _⟩
  have hin : (twoNamed "p" "q").Accepted := by
    refine ⟨⟨fun f hf h => ?_, fun _ h => ?_⟩, fun h => ?_, fun h => ?_⟩
    · simp only [StructDef.data, twoNamed, List.mem_cons, List.not_mem_nil, or_false] at hf
      rcases hf with rfl | rfl <;> cases h
    · cases h
    · cases h
    · cases h
  have hgood := Dict.map_good (fun b : Bool => [b]) boolDict_good
  have hflat : ∀ f ∈ lenient.fields, f.flatParsable = true → ∀ pre sp allowed, Good (f.flatCall pre sp allowed) :=
    aliased_all.2 ⟨fun h => (by cases h),
      fun _ _ _ _ => (twoNamed "p" "q").flatNamed_good hin rfl rfl twoNamed_fine _ _ _,
      fun _ _ _ _ => seqAppend_good boolDict_good.named _⟩
  refine ⟨⟨⟨?_, fun _ h => (by cases h)⟩, fun h => (by cases h), fun h => (by cases h)⟩, rfl, rfl,
    ⟨aliased_all.2 ⟨hgood, hgood, hgood⟩, fun _ => hflat, fun h => (by cases h)⟩, aliased_all.2 ⟨hloc, hloc, hloc⟩, rfl,
    aliased_all.2 ⟨fun h => (by cases h), fun _ => ?_, fun _ => ?_⟩, ?_⟩
  · exact aliased_all.2 ⟨fun h => (by cases h), fun h => (by cases h), fun h => (by cases h)⟩
  · refine .flatten (twoNamed "p" "q") id rfl rfl rfl (fun p h => (by cases h)) ?_ rfl ?_ ?_ rfl
    · funext m pre v
      exact (map_id_flat _).symm
    · exact ⟨fun f hf _ => (twoNamed_fine.item f hf).named, fun f hf => (twoNamed_fine.item f hf).missing,
        twoNamed_fine.flat rfl⟩
    · intro f hf
      simp only [twoNamed, List.mem_cons, List.not_mem_nil, or_false] at hf
      rcases hf with rfl | rfl <;> exact c56_bool
  · exact .appendSeq boolDict id rfl rfl (fun _ => (map_id_flat _).symm) boolDict_good c56_bool
  · refine .keep (v := [.ident ['q'] 1]) (by simp [NoComma, Comma]) ⟨_, _, rfl⟩ ?_
    refine .more (segs := [['z']]) (sp := 3) (v := [.ident ['z'] 3, .punct '=' false 7, .ident ['a'] 8])
      (vt := [.punct '=' false 7, .ident ['a'] 8]) ?_ ?_ (by simp [NoComma, Comma]) ⟨_, _, rfl⟩ (.same _)
    · exact .mk (pt := [.ident ['z'] 3]) (.plain (.one _ _)) (by simp [StartsColon2])
    · have : Field.fieldNames lenient.fields = [['a'], ['b'], ['p'], ['q'], ['x'], ['y']] := rfl
      rw [this]
      simp [keyString]

/-- C124: `{a, z = a, p, q}` and `{a, p, q}` give the same if unknown fields are allowed; if they are not, the former is
rejected.  The key `q` is none of the names of the fields of the structure itself, but it cannot be left out. -/
example : letI : Env := ⟨fun a _ => some a, fun _ _ => 0, 1⟩
    ((lenient.dict.parse (.named 0) ⟨[.group .brace [.ident ['a'] 1, .punct ',' false 2, .ident ['z'] 3, .punct '=' false 7,
      .ident ['a'] 8, .punct ',' false 4, .ident ['p'] 5, .punct ',' false 6, .ident ['q'] 6] 8 9], 0, none⟩).1 matches
      .ok [[true], [true, true], []]) ∧
    ((lenient.dict.parse (.named 0) ⟨[.group .brace [.ident ['a'] 1, .punct ',' false 4, .ident ['p'] 5, .punct ',' false 6,
      .ident ['q'] 6] 8 9], 0, none⟩).1 matches .ok [[true], [true, true], []]) ∧
    ((aliased.dict.parse (.named 0) ⟨[.group .brace [.ident ['a'] 1, .punct ',' false 2, .ident ['z'] 3, .punct '=' false 7,
      .ident ['a'] 8, .punct ',' false 4, .ident ['p'] 5, .punct ',' false 6, .ident ['q'] 6] 8 9], 0, none⟩).1 matches
      .err ⟨⟨3, .unknownField ['z'] _⟩, _⟩) ∧
    ((lenient.dict.parse (.named 0) ⟨[.group .brace [.ident ['a'] 1, .punct ',' false 4, .ident ['p'] 5] 8 9], 0, none⟩).1 matches
      .err _) := by
  decide +kernel

end
end Deluxe
