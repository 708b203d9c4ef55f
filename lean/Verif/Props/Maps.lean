import Verif.Props.Collections
/-!
# C25, C27: maps
-/
namespace Deluxe

/-! ## Specification -/

/-- `p` reads the tokens `v` to the value `a`, whatever follows being `rest`. -/
def ReadsTo {α : Type} (p : M Stream α) (v rest : List Tok) (sc : Span) (a : α) : Prop :=
  ∀ u, ∃ u', p ⟨v ++ rest, sc, u⟩ = (.ok a, ⟨rest, sc, u'⟩)

/-- A map entry: key tokens, then value tokens.  The meaning is the key, what the value reads as, and
the span of the key. -/
inductive EntrySeg [Env] {κ ν : Type} (kp : M Stream κ) (keyStr : κ → Str)
    (vp : Str → Span → M Stream ν) (v rest : List Tok) (sc : Span) :
    κ × Except SynErr ν × Span → Prop
  | mk {kt vt key x} : v = kt ++ vt → ReadsTo kp kt (vt ++ rest) sc key →
      ReadsAs (vp (keyStr key) (Stream.span ⟨v ++ rest, sc, none⟩)) vt rest sc x →
      EntrySeg kp keyStr vp v rest sc
        (key, x, itemSpan ⟨v ++ rest, sc, none⟩ ⟨vt ++ rest, sc, none⟩)

/-- An item seen by a `rest` map: an entry, or an item with an excluded key whose other tokens, which
have no comma, are ignored. -/
inductive RestSeg [Env] {κ ν : Type} (kp : M Stream κ) (keyStr : κ → Str)
    (vp : Str → Span → M Stream ν) (exclude : List Str) (v rest : List Tok) (sc : Span) :
    Option (κ × Except SynErr ν × Span) → Prop
  | entry {key x sp} : EntrySeg kp keyStr vp v rest sc (key, x, sp) → keyStr key ∉ exclude →
      RestSeg kp keyStr vp exclude v rest sc (some (key, x, sp))
  | excluded {kt vt key} : v = kt ++ vt → ReadsTo kp kt (vt ++ rest) sc key →
      keyStr key ∈ exclude → NoComma vt → RestSeg kp keyStr vp exclude v rest sc none

/-- The entries whose value parsed. -/
def okPairs {κ ν : Type} : List (κ × Except SynErr ν × Span) → List (κ × ν)
  | [] => []
  | (k, .ok v, _) :: xs => (k, v) :: okPairs xs
  | (_, .error _, _) :: xs => okPairs xs

/-- The messages of a map: those of failing values, and one for each entry whose key equals an earlier
one. -/
def mapMsgs {κ ν : Type} [DecidableEq κ] (seen : List κ) :
    List (κ × Except SynErr ν × Span) → List Msg
  | [] => []
  | (_, .error e, _) :: xs => e.toList ++ mapMsgs seen xs
  | (k, .ok _, sp) :: xs =>
    if k ∈ seen then ⟨sp, .duplicateKey⟩ :: mapMsgs seen xs else mapMsgs (seen ++ [k]) xs

/-! ## Lemmas -/

/-- Adds an entry to a map. -/
def mapAdd {κ ν : Type} [DecidableEq κ] (acc : Acc (List (κ × ν))) (x : κ × Except SynErr ν × Span) :
    Acc (List (κ × ν)) :=
  match x.2.1 with
  | .ok v =>
    { val := mapInsert acc.val x.1 v
      errs := if x.1 ∈ acc.val.map (·.1) then acc.errs.push x.2.2 .duplicateKey else acc.errs }
  | .error e => { acc with errs := acc.errs.pushSyn e }

theorem mapInsert_keys {κ ν : Type} [DecidableEq κ] (m : List (κ × ν)) (k : κ) (v : ν) :
    (mapInsert m k v).map (·.1) = if k ∈ m.map (·.1) then m.map (·.1) else m.map (·.1) ++ [k] := by
  unfold mapInsert
  split
  · rw [List.map_map]
    refine List.map_congr_left fun e _ => ?_
    simp only [Function.comp]
    split <;> simp_all
  · simp

theorem mapAdd_fold {κ ν : Type} [DecidableEq κ] (xs : List (κ × Except SynErr ν × Span))
    (acc : Acc (List (κ × ν))) :
    (xs.foldl mapAdd acc).errs.toList = acc.errs.toList ++ mapMsgs (acc.val.map (·.1)) xs ∧
      (mapMsgs (acc.val.map (·.1)) xs = [] → (xs.foldl mapAdd acc).val = acc.val ++ okPairs xs) := by
  induction xs generalizing acc with
  | nil => simp [okPairs, mapMsgs]
  | cons x xs ih =>
    obtain ⟨k, x, sp⟩ := x
    rw [List.foldl_cons, (ih _).1]
    have ih2 := (ih (mapAdd acc (k, x, sp))).2
    cases x with
    | error e =>
      simp only [mapAdd, Errors.toList_pushSyn, mapMsgs, List.append_assoc, true_and]
      intro h
      simp [SynErr.toList] at h
    | ok a =>
      simp only [mapAdd, mapMsgs] at ih2 ⊢
      rw [mapInsert_keys] at ih2 ⊢
      by_cases ha : k ∈ acc.val.map (·.1)
      · simp only [ha, if_true] at ih2 ⊢
        simp
      · simp only [ha, if_false] at ih2 ⊢
        refine ⟨trivial, fun h => ?_⟩
        rw [ih2 h]
        simp only [mapInsert, ha, if_false]
        simp [okPairs]

theorem mapMsgs_eq_nil {κ ν : Type} [DecidableEq κ] (xs : List (κ × Except SynErr ν × Span))
    (seen : List κ) :
    mapMsgs seen xs = [] ↔ (∀ x ∈ xs, ∃ a, x.2.1 = .ok a) ∧ (xs.map (·.1)).Nodup ∧
      ∀ x ∈ xs, x.1 ∉ seen := by
  induction xs generalizing seen with
  | nil => simp [mapMsgs]
  | cons x xs ih =>
    obtain ⟨k, x, sp⟩ := x
    cases x with
    | error e => simp [mapMsgs, SynErr.toList]
    | ok a =>
      simp only [mapMsgs]
      by_cases ha : k ∈ seen
      · simp [ha]
      · simp only [ha, if_false, ih, List.map_cons, List.nodup_cons, List.mem_cons,
          List.mem_append, not_or]
        constructor
        · rintro ⟨h1, h2, h3⟩
          refine ⟨by rintro x (rfl | hx); exact ⟨a, rfl⟩; exact h1 x hx, ⟨fun hm => ?_, h2⟩,
            by rintro y (rfl | hy); exact ha; exact (h3 y hy).1⟩
          obtain ⟨y, hy, hk⟩ := List.mem_map.1 hm
          exact (h3 y hy).2.1 hk
        · rintro ⟨h1, ⟨h2, h3⟩, h4⟩
          exact ⟨fun x hx => h1 x (.inr hx), h3, fun y hy => ⟨h4 y (.inr hy),
            fun hk => h2 (List.mem_map.2 ⟨y, hy, hk⟩), by simp⟩⟩

/-- The entry reader: a failing key fails, a failing value is remembered; `after` is what is done to
the stream after a failing value. -/
def entryItem [Env] {κ ν : Type} (kp : M Stream κ) (keyStr : κ → Str) (vp : Str → Span → M Stream ν)
    (exclude : List Str) (after : Stream → Stream) :
    M Stream (Option (κ × Except SynErr ν × Span)) := fun s =>
  match kp s with
  | (.ok key, s1) =>
    if keyStr key ∈ exclude then (.ok none, skipMetaItem s1)
    else
      match vp (keyStr key) s.span s1 with
      | (.ok v, s2) => (.ok (some (key, .ok v, itemSpan s s1)), s2)
      | (.err e, s2) => (.ok (some (key, .error e, itemSpan s s1)), after s2)
      | (.panic, s2) => (.panic, s2)
  | (.err e, s1) => (.err e, s1)
  | (.panic, s1) => (.panic, s1)

theorem entryItem_good [Env] {κ ν : Type} {kp : M Stream κ} {keyStr : κ → Str}
    {vp : Str → Span → M Stream ν} (hk : Good kp) (hv : ∀ n sp, Good (vp n sp)) (exclude : List Str)
    {after : Stream → Stream} (ha : ∀ s, Adv (after s) s) :
    Good (entryItem kp keyStr vp exclude after) := by
  intro s
  have h1 := hk s
  simp only [entryItem]
  cases hp : kp s with
  | mk r s1 =>
    rw [hp] at h1
    cases r with
    | err e => exact ⟨by simp, h1.2⟩
    | panic => exact absurd rfl h1.1
    | ok key =>
      simp only
      split
      · exact ⟨by simp, (skipMetaItem_adv _).trans h1.2⟩
      · have h2 := hv (keyStr key) s.span s1
        cases hq : vp (keyStr key) s.span s1 with
        | mk r s2 =>
          rw [hq] at h2
          cases r with
          | ok v => exact ⟨by simp, Adv.trans h2.2 h1.2⟩
          | err e => exact ⟨by simp, (ha _).trans (Adv.trans h2.2 h1.2)⟩
          | panic => exact absurd rfl h2.1

/-- The loop step of both maps. -/
theorem mapStep_eq [Env] {κ ν : Type} [DecidableEq κ] (kd : Dict κ) (keyStr : κ → Str)
    (vd : Dict ν) :
    mapStep kd keyStr vd = foldStep (entryItem (kd.parse .unnamed) keyStr vd.named [] skipMetaItem)
      (fun k b _ _ => onSome mapAdd k b) := by
  funext st
  obtain ⟨acc, s⟩ := st
  simp only [mapStep, foldStep, entryItem]
  cases hp : kd.parse .unnamed s with
  | mk r s1 =>
    cases r with
    | err e => rfl
    | panic => rfl
    | ok key =>
      simp only [List.not_mem_nil, if_false, stepPush]
      cases hq : vd.named (keyStr key) s.span s1 with
      | mk r s2 => cases r <;> simp [onSome, mapAdd, itemSpan]

theorem restStep_eq [Env] {κ ν : Type} [DecidableEq κ] (kd : Dict κ) (keyStr : κ → Str)
    (vd : Dict ν) (exclude : List Str) :
    restStep kd keyStr vd exclude =
      foldStep (entryItem (kd.parse .unnamed) keyStr vd.named exclude id)
        (fun k b _ _ => onSome mapAdd k b) := by
  funext st
  obtain ⟨acc, s⟩ := st
  simp only [restStep, foldStep, entryItem]
  cases hp : kd.parse .unnamed s with
  | mk r s1 =>
    cases r with
    | err e => rfl
    | panic => rfl
    | ok key =>
      simp only [List.contains_iff_mem]
      by_cases hx : keyStr key ∈ exclude
      · simp [hx, onSome]
      · simp only [hx, if_false]
        cases hq : vd.named (keyStr key) s.span s1 with
        | mk r s2 => cases r <;> simp [onSome, mapAdd, itemSpan]

theorem entryItem_seg [Env] {κ ν : Type} (kp : M Stream κ) (keyStr : κ → Str)
    (vp : Str → Span → M Stream ν) :
    SegSound (entryItem kp keyStr vp [] skipMetaItem)
      (fun v rest sc b => ∃ x, b = some x ∧ EntrySeg kp keyStr vp v rest sc x) := by
  rintro v rest sc b hr hne ⟨x, rfl, hseg⟩ u
  cases hseg with
  | @mk kt vt key x hv hk hx =>
    subst hv
    obtain ⟨u1, h1⟩ := hk u
    simp only [entryItem, List.append_assoc, h1, List.not_mem_nil, if_false] at hx ⊢
    cases x with
    | ok a =>
      obtain ⟨u2, h2⟩ := hx u1
      exact ⟨u2, by
        show (match vp (keyStr key) (Stream.span ⟨kt ++ (vt ++ rest), sc, none⟩) _ with
          | (.ok v, s2) => _ | (.err e, s2) => _ | (.panic, s2) => _) = _
        rw [h2]; rfl⟩
    | error e =>
      obtain ⟨v', u2, hv', h2⟩ := hx u1
      exact ⟨u2, by
        show (match vp (keyStr key) (Stream.span ⟨kt ++ (vt ++ rest), sc, none⟩) _ with
          | (.ok v, s2) => _ | (.err e, s2) => _ | (.panic, s2) => _) = _
        rw [h2]
        simp only [skipMetaItem, skipToks_boundary hv' hr]; rfl⟩

/-- Items of one meaning as items of another. -/
theorem Items.imp {β γ : Type} {seg seg'} {f : β → γ}
    (h : ∀ v rest sc b, seg v rest sc b → seg' v rest sc (f b)) {sc ts bs}
    (hi : Items seg sc ts bs) : Items seg' sc ts (bs.map f) := by
  induction hi with
  | nil => exact .nil
  | last hne hs => exact .last hne (h _ _ _ _ hs)
  | cons hc hs _ ih => exact .cons hc (h _ _ _ _ hs) ih

theorem ItemsAll.imp {β γ : Type} {seg seg'} {f : β → γ}
    (h : ∀ v rest sc b, seg v rest sc b → seg' v rest sc (f b)) {l bs}
    (hi : ItemsAll seg l bs) : ItemsAll seg' l (bs.map f) := by
  induction hi with
  | nil => exact .nil
  | cons h1 _ ih => rw [List.map_append]; exact .cons (h1.imp h) ih

theorem foldl_map_some {κ β : Type} (g : κ → β → κ) (xs : List β) (k : κ) :
    (xs.map some).foldl (onSome g) k = xs.foldl g k := by
  rw [foldl_some]
  congr 1
  induction xs <;> simp_all

theorem M.map_ok {σ α β : Type} (f : α → β) {m : M σ α} {s a s'} (h : m s = (.ok a, s')) :
    m.map f s = (.ok (f a), s') := by
  simp only [M.map, h, Res.map]

/-! ## C25 -/

/-- C25: on comma separated entries spread over any streams a map holds exactly the entries when all
values parse and no key occurs twice; otherwise the error has exactly the messages of the failing
values and one "Duplicate key" per entry whose key occurred before, in order. -/
theorem c25_map [Env] {κ ν : Type} [DecidableEq κ] (kd : Dict κ) (keyStr : κ → Str) (vd : Dict ν)
    (hk : Good (kd.parse .unnamed)) (hv : ∀ n sp, Good (vd.named n sp)) (m : Mode) (i : Nat)
    (l : List Stream) (es : List (κ × Except SynErr ν × Span))
    (h : ItemsAll (EntrySeg (kd.parse .unnamed) keyStr vd.named) l es) :
    ∃ r l', (mapFlat kd keyStr vd).parse m i l = (r, l') ∧
      (mapDict kd keyStr vd).inline m l = (r, l') ∧ AllRead l' ∧
      Collects r (okPairs es) (mapMsgs [] es) ∧
      ((∃ vs, r = .ok vs) ↔ (∀ x ∈ es, ∃ a, x.2.1 = .ok a) ∧ (es.map (·.1)).Nodup) := by
  have h' := h.imp (f := some) (seg' := fun v rest sc b =>
    ∃ x, b = some x ∧ EntrySeg (kd.parse .unnamed) keyStr vd.named v rest sc x)
    (fun v rest sc b hb => ⟨b, rfl, hb⟩)
  obtain ⟨l', h1, h2⟩ := h'.run (entryItem_good hk hv [] skipMetaItem_adv) (entryItem_seg _ _ _)
    (onSome mapAdd) ⟨[], Errors.new⟩
  rw [foldl_map_some] at h1
  have h3 : (mapFlat kd keyStr vd).parse m i l = ((es.foldl mapAdd ⟨[], Errors.new⟩).errs.intoResult
      (es.foldl mapAdd ⟨[], Errors.new⟩).val, l') := by
    simp only [mapFlat, mapStep_eq]
    exact runAcc_ok_of h1
  have hf := mapAdd_fold es ⟨[], Errors.new⟩
  have hc : Collects ((es.foldl mapAdd ⟨[], Errors.new⟩).errs.intoResult
      (es.foldl mapAdd ⟨[], Errors.new⟩).val) (okPairs es) (mapMsgs [] es) :=
    intoResult_collects (by simpa using hf.1) (fun h => by simpa using hf.2 h)
  refine ⟨_, l', h3, h3, h2, hc, ?_⟩
  have hn := mapMsgs_eq_nil es []
  simp only [List.not_mem_nil, not_false_eq_true, implies_true, and_true] at hn
  rw [← hn]
  constructor
  · rintro ⟨vs, hv⟩
    by_cases hm : mapMsgs [] es = []
    · exact hm
    · obtain ⟨e, he, _⟩ := hc.2 hm
      rw [he] at hv; cases hv
  · intro hm
    exact ⟨_, hc.1 hm⟩

/-- One map entry, read as the code reads it: key, then value under the key's name. -/
def entryParser {κ ν : Type} (kp : M Stream κ) (keyStr : κ → Str) (vp : Str → Span → M Stream ν) :
    M Stream (κ × ν) := fun s =>
  match kp s with
  | (.ok key, s1) => (vp (keyStr key) s.span).map (fun v => (key, v)) s1
  | (.err e, s1) => (.err e, s1)
  | (.panic, s1) => (.panic, s1)

/-- C25: conversely, a returned map consists of entries read one after the other, separated by single
commas, with pairwise different keys, and nothing is left. -/
theorem c25_only_entries [Env] {κ ν : Type} [DecidableEq κ] (kd : Dict κ) (keyStr : κ → Str)
    (vd : Dict ν) (hk : Good (kd.parse .unnamed)) (hv : ∀ n sp, Good (vd.named n sp)) (m : Mode)
    (i : Nat) (l l' : List Stream) (es : List (κ × ν))
    (h : (mapFlat kd keyStr vd).parse m i l = (.ok es, l')) :
    ∃ rs, ReadsAll (entryParser (kd.parse .unnamed) keyStr vd.named) l rs none l' ∧
      es = rs.map (·.1) ∧ (es.map (·.1)).Nodup ∧ AllRead l' := by
  simp only [mapFlat, mapStep_eq] at h
  obtain ⟨acc, h1, h2, rfl⟩ := runAcc_ok h
  obtain ⟨rs, h3, rfl⟩ := fold_ok (entryItem_good hk hv [] skipMetaItem_adv) _ h1
  -- every item is an entry
  have hsome : ∀ x ∈ rs, ∃ y, x.1 = some y := by
    have key : ∀ {s b s'}, entryItem (kd.parse .unnamed) keyStr vd.named [] skipMetaItem s =
        (.ok b, s') → ∃ y, b = some y := by
      intro s b s' h
      simp only [entryItem, List.not_mem_nil, if_false] at h
      split at h
      · split at h <;> simp at h <;> exact ⟨_, h.1.symm⟩
      · simp at h
      · simp at h
    have k1 : ∀ {s rs o s'}, Reads (entryItem (kd.parse .unnamed) keyStr vd.named [] skipMetaItem)
        s rs o s' → ∀ x ∈ rs, ∃ y, x.1 = some y := by
      intro s rs o s' h
      induction h with
      | done => simp
      | last _ hi => intro x hx; simp at hx; subst hx; exact key hi
      | more _ hi _ _ _ ih =>
        intro x hx
        rcases List.mem_cons.1 hx with rfl | hx
        · exact key hi
        · exact ih x hx
      | failItem => simp
      | failSep _ hi => intro x hx; simp at hx; subst hx; exact key hi
    clear h h1 h2
    generalize (none : Option SynErr) = o at h3
    induction h3 with
    | nil => simp
    | cons a _ ih =>
      intro x hx
      rcases List.mem_append.1 hx with hx | hx
      · exact k1 a x hx
      · exact ih x hx
    | fail a => exact k1 a
  obtain ⟨ys, hys⟩ : ∃ ys : List (κ × Except SynErr ν × Span), rs.map (·.1) = ys.map some := by
    clear h h1 h2 h3
    induction rs with
    | nil => exact ⟨[], rfl⟩
    | cons x rs ih =>
      obtain ⟨y, hy⟩ := hsome x (by simp)
      obtain ⟨ys, hys⟩ := ih (fun x hx => hsome x (by simp [hx]))
      exact ⟨y :: ys, by simp [hy, hys]⟩
  rw [hys, foldl_map_some] at h2 ⊢
  have hf := mapAdd_fold ys ⟨[], Errors.new⟩
  rw [h2] at hf
  have he : mapMsgs [] ys = [] := by simpa using hf.1.symm
  have hok := (mapMsgs_eq_nil _ _).1 he
  have hval : (ys.foldl mapAdd ⟨[], Errors.new⟩).val = okPairs ys := by simpa using hf.2 he
  rw [hval]
  have hpairs : (okPairs ys).map (·.1) = ys.map (·.1) := by
    have h1 := hok.1
    clear hval hok he hf h2 hys
    induction ys with
    | nil => rfl
    | cons y ys ih =>
      obtain ⟨k, x, sp⟩ := y
      obtain ⟨a, ha⟩ := h1 _ (List.mem_cons_self ..)
      simp only at ha; subst ha
      simp [okPairs, ih (fun x hx => h1 x (by simp [hx]))]
  -- the reads as plain reads
  have hreads : ∀ {l rs l'}, ReadsAll (entryItem (kd.parse .unnamed) keyStr vd.named [] skipMetaItem)
      l rs none l' → ∀ ys, rs.map (·.1) = ys.map some → (∀ y ∈ ys, ∃ a, y.2.1 = .ok a) →
      ∃ rs', ReadsAll (entryParser (kd.parse .unnamed) keyStr vd.named) l rs' none l' ∧
        okPairs ys = rs'.map (·.1) := by
    have kit : ∀ {s y s'}, entryItem (kd.parse .unnamed) keyStr vd.named [] skipMetaItem s =
        (.ok (some y), s') → ∀ a, y.2.1 = .ok a →
        entryParser (kd.parse .unnamed) keyStr vd.named s = (.ok (y.1, a), s') := by
      intro s y s' h a ha
      simp only [entryItem, entryParser, List.not_mem_nil, if_false] at h ⊢
      split at h
      · rename_i hkp
        split at h <;> simp at h
        · rename_i hq
          obtain ⟨rfl, rfl⟩ := h
          simp at ha; subst ha
          exact M.map_ok _ hq
        · obtain ⟨rfl, rfl⟩ := h; simp at ha
      · simp at h
      · simp at h
    have kpairs : ∀ (a b : List (κ × Except SynErr ν × Span)),
        okPairs (a ++ b) = okPairs a ++ okPairs b := by
      intro a b
      induction a with
      | nil => rfl
      | cons x a ih => obtain ⟨k, x, sp⟩ := x; cases x <;> simp [okPairs, ih]
    have k1 : ∀ {s rs o s'}, Reads (entryItem (kd.parse .unnamed) keyStr vd.named [] skipMetaItem)
        s rs o s' → o = none → ∀ ys, rs.map (·.1) = ys.map some →
        (∀ y ∈ ys, ∃ a, y.2.1 = .ok a) →
        ∃ rs', Reads (entryParser (kd.parse .unnamed) keyStr vd.named) s rs' none s' ∧
          okPairs ys = rs'.map (·.1) := by
      intro s rs o s' h
      induction h with
      | done h =>
        intro _ ys hys _
        cases ys with
        | nil => exact ⟨[], .done h, rfl⟩
        | cons => simp at hys
      | last hne hi h0 =>
        intro _ ys hys hall
        match ys with
        | [] => simp at hys
        | y :: _ :: _ => simp at hys
        | [y] =>
          simp at hys
          obtain ⟨a, ha⟩ := hall y (by simp)
          subst hys
          refine ⟨_, .last hne (kit hi a ha) h0, ?_⟩
          obtain ⟨k, x, sp⟩ := y
          simp only at ha; subst ha; rfl
      | more hne hi h1 hc _ ih =>
        intro ho ys hys hall
        match ys with
        | [] => simp at hys
        | y :: ys =>
          simp only [List.map_cons, List.cons.injEq] at hys
          obtain ⟨hy, hys⟩ := hys
          subst hy
          obtain ⟨a, ha⟩ := hall y (by simp)
          obtain ⟨rs', i1, i2⟩ := ih ho ys hys (fun y hy => hall y (by simp [hy]))
          refine ⟨_, .more hne (kit hi a ha) h1 hc i1, ?_⟩
          obtain ⟨k, x, sp⟩ := y
          simp only at ha; subst ha
          simp [okPairs, i2]
      | failItem => intro ho; cases ho
      | failSep => intro ho; cases ho
    intro l rs l' h
    generalize ho : (none : Option SynErr) = o at h
    induction h with
    | nil =>
      intro ys hys _
      cases ys with
      | nil => exact ⟨[], .nil, rfl⟩
      | cons => simp at hys
    | cons a _ ih =>
      intro ys hys hall
      rw [List.map_append] at hys
      obtain ⟨y1, y2, rfl, e1, e2⟩ := List.map_eq_append_iff.1 hys.symm
      obtain ⟨r1, i1, i2⟩ := k1 a rfl y1 e1.symm (fun y hy => hall y (by simp [hy]))
      obtain ⟨r2, j1, j2⟩ := ih ho y2 e2.symm (fun y hy => hall y (by simp [hy]))
      subst ho
      exact ⟨r1 ++ r2, .cons i1 j1, by simp [kpairs, i2, j2]⟩
    | fail => cases ho
  obtain ⟨rs', h5, h6⟩ := hreads h3 ys hys hok.1
  exact ⟨rs', h5, h6, by rw [hpairs]; exact hok.2.1, h3.read⟩

/-! ## C27 -/

theorem restSeg_item [Env] {κ ν : Type} (kd : Dict κ) (keyStr : κ → Str) (vd : Dict ν) (exclude : List Str)
    (v rest : List Tok) (sc : Span) (b : Option (κ × Except SynErr ν × Span)) (hr : Boundary rest)
    (hseg : RestSeg (kd.parse .unnamed) keyStr vd.named exclude v rest sc b) (u : Option Span) : ∃ v' u',
      NoComma v' ∧ ((∀ x ∈ b, ∃ a, x.2.1 = .ok a) → v' = []) ∧
      entryItem (kd.parse .unnamed) keyStr vd.named exclude id ⟨v ++ rest, sc, u⟩ =
        (.ok b, ⟨v' ++ rest, sc, u'⟩) := by
  cases hseg with
  | @entry key x sp hseg hx =>
    cases hseg with
    | @mk kt vt key x hv hkey hval =>
      subst hv
      obtain ⟨u1, h1⟩ := hkey u
      simp only [entryItem, List.append_assoc, h1, hx, if_false] at hval ⊢
      cases x with
      | ok a =>
        obtain ⟨u2, h2⟩ := hval u1
        exact ⟨[], u2, by simp [NoComma], fun _ => rfl, by
          show (match vd.named (keyStr key) (Stream.span ⟨kt ++ (vt ++ rest), sc, none⟩) _ with
            | (.ok v, s2) => _ | (.err e, s2) => _ | (.panic, s2) => _) = _
          rw [h2]; rfl⟩
      | error e =>
        obtain ⟨v', u2, hv', h2⟩ := hval u1
        exact ⟨v', u2, hv', (fun h => by
          obtain ⟨a, ha⟩ := h _ rfl
          cases ha), by
          show (match vd.named (keyStr key) (Stream.span ⟨kt ++ (vt ++ rest), sc, none⟩) _ with
            | (.ok v, s2) => _ | (.err e, s2) => _ | (.panic, s2) => _) = _
          rw [h2]; rfl⟩
  | @excluded kt vt key hv hkey hx hn =>
    subst hv
    obtain ⟨u1, h1⟩ := hkey u
    exact ⟨[], u1, by simp [NoComma], fun _ => rfl, by
      simp only [entryItem, List.append_assoc, h1, hx, if_true, skipMetaItem,
        skipToks_boundary hn hr, List.nil_append]⟩

theorem restSeg_reads [Env] {κ ν : Type} (kd : Dict κ) (keyStr : κ → Str) (vd : Dict ν) (exclude : List Str)
    (sc : Span) (ts : List Tok) (bs : List (Option (κ × Except SynErr ν × Span)))
    (hi : Items (RestSeg (kd.parse .unnamed) keyStr vd.named exclude) sc ts bs) :
    ∀ u, ∃ rs fatal s', Reads (entryItem (kd.parse .unnamed) keyStr vd.named exclude id)
      ⟨ts, sc, u⟩ rs fatal s' ∧ (fatal = none → rs.map (·.1) = bs) ∧
      ((∀ x ∈ bs.filterMap id, ∃ a, x.2.1 = .ok a) → fatal = none) := by
  induction hi with
  | nil => intro u; exact ⟨[], none, _, .done rfl, fun _ => rfl, fun _ => rfl⟩
  | @last v b hne hseg =>
    intro u
    obtain ⟨v', u', hv', hok, h1⟩ := restSeg_item kd keyStr vd exclude v [] sc b (.inl rfl) hseg u
    rw [List.append_nil] at h1
    cases hv0 : v' with
    | nil => subst hv0; exact ⟨[(b, _, _)], none, _, .last hne h1 rfl, fun _ => rfl, fun _ => rfl⟩
    | cons t v'' =>
      subst hv0
      refine ⟨[(b, _, _)], some _, _, .failSep hne h1 rfl (hv' t (by simp)), (by simp),
        fun hall => absurd (hok fun x hx => hall x ?_) (by simp)⟩
      simpa using hx
  | @cons v c rest b bs hc hseg _ ih =>
    intro u
    obtain ⟨v', u', hv', hok, h1⟩ := restSeg_item kd keyStr vd exclude v (c :: rest) sc b (.inr ⟨_, _, rfl, hc⟩) hseg u
    cases hv0 : v' with
    | nil =>
      subst hv0
      obtain ⟨rs, fatal, s', i1, i2, i3⟩ := ih u'
      refine ⟨(b, _, _) :: rs, fatal, s', .more (by simp) h1 rfl hc i1,
        fun h => by simp [i2 h], fun hall => i3 fun x hx => hall x ?_⟩
      cases b <;> simp_all
    | cons t v'' =>
      subst hv0
      refine ⟨[(b, _, _)], some _, _, .failSep (by simp) h1 rfl (hv' t (by simp)), (by simp),
        fun hall => absurd (hok fun x hx => hall x ?_) (by simp)⟩
      cases b <;> simp_all

/-- C27: on comma separated items spread over any streams, a `rest` map holds exactly the entries whose
key is not excluded, items with excluded keys being skipped whatever their value tokens are; repeated
keys are reported; and if a value fails the result is an error. -/
theorem c27_rest [Env] {κ ν : Type} [DecidableEq κ] (kd : Dict κ) (keyStr : κ → Str) (vd : Dict ν)
    (hk : Good (kd.parse .unnamed)) (hv : ∀ n sp, Good (vd.named n sp)) (exclude : List Str)
    (l : List Stream) (es : List (Option (κ × Except SynErr ν × Span)))
    (h : ItemsAll (RestSeg (kd.parse .unnamed) keyStr vd.named exclude) l es) :
    ∃ r l', mapRest kd keyStr vd exclude l = (r, l') ∧
      ((∀ x ∈ es.filterMap id, ∃ a, x.2.1 = .ok a) → AllRead l' ∧
        Collects r (okPairs (es.filterMap id)) (mapMsgs [] (es.filterMap id))) ∧
      ((∃ x ∈ es.filterMap id, ∃ e, x.2.1 = .error e) → ∃ e, r = .err e) := by
  have hgood := entryItem_good (keyStr := keyStr) hk hv exclude (after := id) (fun s => Adv.refl s)
  have hall : ∃ rs fatal l', ReadsAll (entryItem (kd.parse .unnamed) keyStr vd.named exclude id)
        l rs fatal l' ∧ (fatal = none → rs.map (·.1) = es) ∧
        ((∀ x ∈ es.filterMap id, ∃ a, x.2.1 = .ok a) → fatal = none) := by
    induction h with
    | nil => exact ⟨[], none, [], .nil, fun _ => rfl, fun _ => rfl⟩
    | @cons s bs rest bs' h1 _ ih =>
      obtain ⟨rs1, f1, s1, a1, a2, a3⟩ := restSeg_reads kd keyStr vd exclude _ _ _ h1 s.unexp
      cases f1 with
      | some e =>
        refine ⟨rs1, some e, s1 :: rest, .fail a1, (by simp), fun hall => a3 fun x hx => hall x ?_⟩
        rw [List.filterMap_append]; exact List.mem_append_left _ hx
      | none =>
        obtain ⟨rs2, f2, l2, b1, b2, b3⟩ := ih
        refine ⟨rs1 ++ rs2, f2, s1 :: l2, .cons a1 b1, fun h => by simp [a2, b2 h],
          fun hall => b3 fun x hx => hall x ?_⟩
        rw [List.filterMap_append]; exact List.mem_append_right _ hx
  obtain ⟨rs, fatal, l', h1, h2, h3⟩ := hall
  have hrun := runAcc_reads hgood (fun k b _ _ => onSome mapAdd k b) ([] : List (κ × ν)) h1
  refine ⟨_, _, by simp only [mapRest, restStep_eq]; exact hrun, ?_, ?_⟩
  · intro hok
    have hf := h3 hok
    subst hf
    refine ⟨h1.read, ?_⟩
    simp only [foldReads_map, h2 rfl, foldl_some, accResult]
    have hfold := mapAdd_fold (es.filterMap id) ⟨[], Errors.new⟩
    exact intoResult_collects (by simpa using hfold.1) (fun h => by simpa using hfold.2 h)
  · rintro ⟨x, hx, e, he⟩
    cases fatal with
    | some e => exact ⟨e, rfl⟩
    | none =>
      simp only [foldReads_map, h2 rfl, foldl_some, accResult]
      have hfold := mapAdd_fold (es.filterMap id) ⟨[], Errors.new⟩
      have hne : mapMsgs [] (es.filterMap id) ≠ [] := by
        intro h0
        obtain ⟨a, ha⟩ := ((mapMsgs_eq_nil _ _).1 h0).1 x hx
        rw [ha] at he; cases he
      obtain ⟨e, he, _⟩ := (intoResult_collects (w := okPairs (es.filterMap id))
        (by simpa using hfold.1) (fun h => by simpa using hfold.2 h)).2 hne
      exact ⟨e, he⟩

/-- Non-trivial case: `a = true, x = 5` with `x` excluded. -/
example [Env] : ItemsAll (RestSeg (identDict.parse .unnamed) id boolDict.named [['x']])
    [⟨[.ident ['a'] 1, .punct '=' false 2, .ident "true".toList 3, .punct ',' false 4,
       .ident ['x'] 5, .punct '=' false 6, .lit (.int 5) 7], 9, none⟩]
    [some (['a'], .ok true, (Env.join 2 1).getD 1), none] :=
  .cons (bs := [_, _])
    (.cons (v := [.ident ['a'] 1, .punct '=' false 2, .ident "true".toList 3]) ⟨_, _, rfl⟩
      (.entry (.mk (kt := [.ident ['a'] 1]) (vt := [.punct '=' false 2, .ident "true".toList 3])
        (key := ['a']) (x := .ok true) rfl (fun u => ⟨u, rfl⟩) (fun u => ⟨u, rfl⟩)) (by simp))
      (.last (by simp) (.excluded (kt := [.ident ['x'] 5]) (key := ['x'])
        (vt := [.punct '=' false 6, .lit (.int 5) 7]) rfl
        (fun u => ⟨u, rfl⟩) (by simp)
        (by
          intro t ht
          simp at ht
          rcases ht with rfl | rfl <;> rintro ⟨_, _, h⟩ <;> simp at h)))) .nil

/-- Non-trivial case for C25: `a = true, a` has a repeated key. -/
example [Env] : ItemsAll (EntrySeg (identDict.parse .unnamed) id boolDict.named)
    [⟨[.ident ['a'] 1, .punct '=' false 2, .ident "true".toList 3, .punct ',' false 4,
       .ident ['a'] 5], 9, none⟩]
    [(['a'], .ok true, (Env.join 2 1).getD 1), (['a'], .ok true, (Env.join 9 5).getD 5)] :=
  .cons (bs := [_, _])
    (.cons (v := [.ident ['a'] 1, .punct '=' false 2, .ident "true".toList 3]) ⟨_, _, rfl⟩
      (.mk (kt := [.ident ['a'] 1]) (vt := [.punct '=' false 2, .ident "true".toList 3])
        (key := ['a']) (x := .ok true) rfl (fun u => ⟨u, rfl⟩) (fun u => ⟨u, rfl⟩))
      (.last (by simp) (.mk (kt := [.ident ['a'] 5]) (key := ['a']) (vt := []) (x := .ok true) rfl
        (fun u => ⟨u, rfl⟩) (fun u => ⟨u, rfl⟩)))) .nil

/-- A failing value in a `rest` map can hide the messages of earlier ones: the item is not skipped, so
the missing comma is reported alone. -/
theorem c27_failing_value_hides : ¬ ∀ [Env] (kd : Dict Str) (vd : Dict Bool) (l : List Stream)
    (es : List (Option (Str × Except SynErr Bool × Span)))
    (_ : ItemsAll (RestSeg (kd.parse .unnamed) id vd.named []) l es)
    (r : Res (List (Str × Bool))) (l' : List Stream), mapRest kd id vd [] l = (r, l') →
    Collects r (okPairs (es.filterMap id)) (mapMsgs [] (es.filterMap id)) := by
  intro h
  let _ : Env := ⟨fun a _ => some a, fun _ _ => 0, 0⟩
  have := @h ⟨fun a _ => some a, fun _ _ => 0, 0⟩ identDict
    (.mk' (parse := fun _ s => (.err (.new s.span .expectedToken), s)))
    [⟨[.ident ['a'] 1, .punct '=' false 2, .lit (.int 5) 3], 9, none⟩]
    [some (['a'], .error (.new 3 .expectedToken), 2)]
    (.cons (bs := [_]) (.last (by simp)
      (.entry (.mk (kt := [.ident ['a'] 1]) (vt := [.punct '=' false 2, .lit (.int 5) 3])
        (key := ['a']) (x := .error (.new 3 .expectedToken)) rfl (fun u => ⟨u, rfl⟩)
        (fun u => ⟨[.lit (.int 5) 3], u, by
          intro t ht; simp at ht; subst ht; rintro ⟨_, _, h⟩; simp at h, rfl⟩)) (by simp))) .nil)
    _ _ rfl
  obtain ⟨e, h1, h2⟩ := this.2 (by simp [mapMsgs, SynErr.toList])
  simp only [mapMsgs, List.filterMap, id, SynErr.new, SynErr.toList] at h2
  cases h1
  simp [SynErr.new] at h2

/-- An item of a `rest` map: an excluded key and anything up to the next comma, or a key and a value. -/
def restParser {κ ν : Type} (kp : M Stream κ) (keyStr : κ → Str) (vp : Str → Span → M Stream ν)
    (exclude : List Str) : M Stream (Option (κ × ν)) := fun s =>
  match kp s with
  | (.ok key, s1) =>
    if keyStr key ∈ exclude then (.ok none, skipMetaItem s1)
    else (vp (keyStr key) s.span).map (fun v => some (key, v)) s1
  | (.err e, s1) => (.err e, s1)
  | (.panic, s1) => (.panic, s1)

/-- The entry of an item whose value parsed. -/
def okEntry {κ ν : Type} : Option (κ × Except SynErr ν × Span) → Option (κ × ν)
  | some (k, .ok v, _) => some (k, v)
  | _ => none

theorem filterMap_okEntry {κ ν : Type} (xs : List (Option (κ × Except SynErr ν × Span))) :
    xs.filterMap okEntry = okPairs (xs.filterMap id) := by
  induction xs with
  | nil => rfl
  | cons x xs ih =>
    rcases x with _ | ⟨k, _ | v, sp⟩ <;> simp [okEntry, okPairs, ih, List.filterMap_cons]

theorem okPairs_keys {κ ν : Type} (ys : List (κ × Except SynErr ν × Span))
    (h : ∀ y ∈ ys, ∃ a, y.2.1 = .ok a) : (okPairs ys).map (·.1) = ys.map (·.1) := by
  induction ys with
  | nil => rfl
  | cons y ys ih =>
    obtain ⟨k, x, sp⟩ := y
    obtain ⟨a, ha⟩ := h _ (List.mem_cons_self ..)
    simp only at ha; subst ha
    simp [okPairs, ih (fun x hx => h x (by simp [hx]))]

/-- C27: conversely, a returned `rest` map consists of the entries with a key that is not excluded, in a
list of items separated by single commas; their keys are pairwise different, and nothing is left. -/
theorem c27_only_entries [Env] {κ ν : Type} [DecidableEq κ] (kd : Dict κ) (keyStr : κ → Str)
    (vd : Dict ν) (hk : Good (kd.parse .unnamed)) (hv : ∀ n sp, Good (vd.named n sp))
    (exclude : List Str) (l l' : List Stream) (es : List (κ × ν))
    (h : mapRest kd keyStr vd exclude l = (.ok es, l')) :
    ∃ rs, ReadsAll (restParser (kd.parse .unnamed) keyStr vd.named exclude) l rs none l' ∧
      es = (rs.map (·.1)).filterMap id ∧ (es.map (·.1)).Nodup ∧ AllRead l' := by
  simp only [mapRest, restStep_eq] at h
  obtain ⟨acc, h1, h2, rfl⟩ := runAcc_ok h
  obtain ⟨rs, h3, rfl⟩ := fold_ok (entryItem_good hk hv exclude (after := id) fun s => Adv.refl s) _ h1
  have hs := foldl_some (mapAdd (κ := κ) (ν := ν)) (rs.map (·.1)) ⟨[], Errors.new⟩
  have hf := mapAdd_fold ((rs.map (·.1)).filterMap id) ⟨[], Errors.new⟩
  rw [hs] at h2 ⊢
  rw [h2] at hf
  have he : mapMsgs [] ((rs.map (·.1)).filterMap id) = [] := by simpa using hf.1.symm
  have hok := (mapMsgs_eq_nil _ _).1 he
  have hval : (((rs.map (·.1)).filterMap id).foldl mapAdd ⟨[], Errors.new⟩).val =
      okPairs ((rs.map (·.1)).filterMap id) := by simpa using hf.2 (by simpa using he)
  refine ⟨_, h3.transfer okEntry (fun b => ∀ y ∈ b, ∃ a, y.2.1 = .ok a) ?_ rfl ?_, ?_, ?_, h3.read⟩
  · intro s b s' hb hi
    simp only [entryItem, restParser] at hi ⊢
    split at hi
    · rename_i hkp
      split at hi
      · simp only [Prod.mk.injEq, Res.ok.injEq] at hi
        obtain ⟨rfl, rfl⟩ := hi
        rename_i hx
        simp [hx, okEntry]
      · rename_i hx
        split at hi <;> simp at hi
        · rename_i hq
          obtain ⟨rfl, rfl⟩ := hi
          simp only [hx, if_false]
          exact M.map_ok _ hq
        · obtain ⟨rfl, rfl⟩ := hi
          obtain ⟨a, ha⟩ := hb _ rfl
          simp at ha
    · simp at hi
    · simp at hi
  · intro x hx y hy
    exact hok.1 y (List.mem_filterMap.2 ⟨x.1, List.mem_map_of_mem hx, hy⟩)
  · rw [hval, ← filterMap_okEntry]
    simp [List.filterMap_map, Function.comp_def]
  · rw [hval, okPairs_keys _ hok.1]
    exact hok.2.1

/-- Non-trivial case: `a = true, x = 5` with `x` excluded is a map, `a = true b` is not. -/
example [Env] : (∃ l', mapRest identDict id boolDict [['x']]
      [⟨[.ident ['a'] 1, .punct '=' false 2, .ident "true".toList 3, .punct ',' false 4,
        .ident ['x'] 5, .punct '=' false 6, .lit (.int 5) 7], 9, none⟩] = (.ok [(['a'], true)], l')) ∧
    ∃ e l', mapRest identDict id boolDict []
      [⟨[.ident ['a'] 1, .punct '=' false 2, .ident "true".toList 3, .ident ['b'] 4], 9, none⟩] =
        (.err e, l') :=
  ⟨⟨_, rfl⟩, ⟨_, _, rfl⟩⟩

end Deluxe
