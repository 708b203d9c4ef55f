import Verif.Lemmas.Struct
import Verif.Lemmas.Pos
import Verif.Spec.TupleStruct
/-!
# Derived tuple structures
-/
namespace Deluxe

variable {V : Type}

/-! ## From the slots to the value -/

/-- From the slots before defaults and transforms to the value. -/
theorem post_ok (d : Fields V) (ha : Accepted d) (ht : d.transparent = false)
    (g : Field V → Nat → Option (Except SynErr V)) (fl ms : Field V → Nat → Res V)
    (hp : ∀ (i : Nat) f, d.fields[i]? = some f → ¬ f.Plain → g f i = none)
    (hfl : ∀ (i : Nat) f, d.fields[i]? = some f → f.flatParsable = true → fl f i ≠ .panic)
    (hm : ∀ (i : Nat) f, d.fields[i]? = some f → ms f i ≠ .panic)
    {S : Slots V} (hl : S.length = d.fields.length)
    (hS : ∀ (i : Nat) f, d.fields[i]? = some f → S[i]? = some (slot2 d f (g f i) (fl f i) (ms f i)))
    {errs : Errors} {M : List Msg}
    (he : errs.toList = M ++
      eachField d.fields fun f i => (missOut d (ms f i) f (slot1 f (g f i) (fl f i))).2)
    (hM : M = [] → ∀ (i : Nat) f, d.fields[i]? = some f → flatMsg (outOf f (fl f i)) = [] ∧
      ∀ e, g f i ≠ some (.error e)) (vs : List V) :
    finish d (setPass d.fields S errs).1 (setPass d.fields S errs).2 = .ok vs ↔
      M = [] ∧ vs.length = d.fields.length ∧ ∀ (i : Nat) f, d.fields[i]? = some f → ∃ v,
        vs[i]? = some v ∧ Ends d f (g f i) (fl f i) (ms f i) i v := by
  obtain ⟨errs', h1, h2⟩ := setPass_eq d.fields S errs
  rw [h1]
  simp only
  have hnil : errs'.toList = [] ↔ M = [] ∧ ∀ (i : Nat) f, d.fields[i]? = some f →
      (missOut d (ms f i) f (slot1 f (g f i) (fl f i))).2 = [] ∧
      (setOut f (slot2 d f (g f i) (fl f i) (ms f i))).2 = [] := by
    rw [h2, he, List.append_eq_nil_iff, List.append_eq_nil_iff, flatten_zipWith_nil]
    constructor
    · rintro ⟨⟨a, b⟩, c⟩
      refine ⟨a, fun i f hf => ⟨?_, c i f _ hf (hS i f hf)⟩⟩
      rw [eachField, List.flatten_eq_nil_iff] at b
      exact b _ (List.mem_of_getElem? (i := i) (by simp [List.getElem?_map, List.getElem?_zipIdx, hf]))
    · rintro ⟨a, b⟩
      refine ⟨⟨a, ?_⟩, fun i f st hf hs => ?_⟩
      · rw [eachField, List.flatten_eq_nil_iff]
        intro x hx
        obtain ⟨i, hi⟩ := List.getElem?_of_mem hx
        rw [List.getElem?_map, List.getElem?_zipIdx] at hi
        cases hf : d.fields[i]? with
        | none => simp [hf] at hi
        | some f => simp [hf] at hi; rw [← hi]; exact (b i f hf).1
      · rw [hS i f hf] at hs; cases hs; exact (b i f hf).2
  have hlen : (List.zipWith (fun f st => (setOut f st).1) d.fields S).length = d.fields.length := by
    simp [hl]
  have hS3 : ∀ (i : Nat) f, d.fields[i]? = some f →
      (List.zipWith (fun f st => (setOut f st).1) d.fields S)[i]? =
        some (slot3 d f (g f i) (fl f i) (ms f i)) := by
    intro i f hf
    rw [List.getElem?_zipWith, hf, hS i f hf]; rfl
  rw [finish_ok d hlen ha.target, hnil]
  constructor
  · rintro ⟨⟨a, b⟩, c, e⟩
    refine ⟨a, c, fun i f hf => ?_⟩
    obtain ⟨v, hv, hfin⟩ := e i _ (hS3 i f hf)
    exact ⟨v, hv, (field_holds d ha ht (hp i f hf) hf (hfl i f hf) (hm i f hf) (hM a i f hf).2 v).1
      ⟨(hM a i f hf).1, (b i f hf).1, (b i f hf).2, hfin⟩⟩
  · rintro ⟨a, c, e⟩
    have key : ∀ (i : Nat) f, d.fields[i]? = some f → ∃ v, vs[i]? = some v ∧ _ := fun i f hf => by
      obtain ⟨v, hv, hh⟩ := e i f hf
      exact ⟨v, hv, (field_holds d ha ht (hp i f hf) hf (hfl i f hf) (hm i f hf) (hM a i f hf).2 v).2
        hh⟩
    refine ⟨⟨a, fun i f hf => ?_⟩, c, fun i st hs => ?_⟩
    · obtain ⟨v, _, _, k2, k3, _⟩ := key i f hf; exact ⟨k2, k3⟩
    · have hi := (List.getElem?_eq_some_iff.1 hs).1
      rw [hlen] at hi
      have hf := List.getElem?_eq_getElem hi
      rw [hS3 i _ hf] at hs
      cases hs
      obtain ⟨v, k0, _, _, _, k4⟩ := key i _ hf
      exact ⟨v, k0, k4⟩

/-- The messages of the passes after the items, or the value. -/
theorem post_msgs (d : Fields V) (ha : Accepted d) (ht : d.transparent = false)
    (g : Field V → Nat → Option (Except SynErr V)) (fl ms : Field V → Nat → Res V)
    (hp : ∀ (i : Nat) f, d.fields[i]? = some f → ¬ f.Plain → g f i = none)
    (hfl : ∀ (i : Nat) f, d.fields[i]? = some f → f.flatParsable = true → fl f i ≠ .panic)
    (hm : ∀ (i : Nat) f, d.fields[i]? = some f → ms f i ≠ .panic)
    {S : Slots V} (hl : S.length = d.fields.length)
    (hS : ∀ (i : Nat) f, d.fields[i]? = some f → S[i]? = some (slot2 d f (g f i) (fl f i) (ms f i)))
    {errs : Errors} {M : List Msg}
    (he : errs.toList = M ++
      eachField d.fields fun f i => (missOut d (ms f i) f (slot1 f (g f i) (fl f i))).2)
    (hM : M = [] → ∀ (i : Nat) f, d.fields[i]? = some f → flatMsg (outOf f (fl f i)) = [] ∧
      ∀ e, g f i ≠ some (.error e)) :
    ∃ trans : List (List Msg), trans.length = d.fields.length ∧
      (∀ (i : Nat) f, d.fields[i]? = some f → ∃ m, trans[i]? = some m ∧
        TransMsgs d f (g f i) (fl f i) (ms f i) m) ∧
      ∀ msgs, msgs = M ++
          (eachField d.fields fun f i => (missOut d (ms f i) f (slot1 f (g f i) (fl f i))).2) ++
          trans.flatten →
        (msgs ≠ [] → FailsWith
          (finish d (setPass d.fields S errs).1 (setPass d.fields S errs).2) msgs) ∧
        (msgs = [] → ∃ vs,
          finish d (setPass d.fields S errs).1 (setPass d.fields S errs).2 = .ok vs) := by
  obtain ⟨errs', h1, h2⟩ := setPass_eq d.fields S errs
  refine ⟨List.zipWith (fun f st => (setOut f st).2) d.fields S, by simp [hl], ?_, ?_⟩
  · intro i f hf
    exact ⟨_, by simp [List.getElem?_zipWith, hf, hS i f hf],
      setOut_msgs d (hm i f hf) ha ht (hp i f hf) (List.mem_of_getElem? hf) (hfl i f hf)⟩
  · rintro msgs rfl
    rw [h1]
    simp only
    rw [he] at h2
    obtain ⟨f1, f2⟩ := finish_eq d (List.zipWith (fun f st => (setOut f st).1) d.fields S) errs'
    rw [h2] at f1 f2
    refine ⟨f1, fun hn => ?_⟩
    have f2 := f2 hn
    cases htg : d.target with
    | some t => exact ⟨_, by rw [f2, htg]⟩
    | none =>
      rw [htg] at f2
      rw [List.append_eq_nil_iff, List.append_eq_nil_iff, flatten_zipWith_nil] at hn
      obtain ⟨⟨n1, n2⟩, n3⟩ := hn
      obtain ⟨vs, hvs⟩ := slots_all (sts := List.zipWith (fun f st => (setOut f st).1) d.fields S)
        (fun i st hs => by
          have hlt := (List.getElem?_eq_some_iff.1 hs).1
          have hlt' : i < d.fields.length := by simp [hl] at hlt; exact hlt
          have hf := List.getElem?_eq_getElem hlt'
          rw [List.getElem?_zipWith, hf, hS i _ hf] at hs
          simp only [Option.some.injEq] at hs
          have q3 := n3 i _ _ hf (hS i _ hf)
          have q2 : (missOut d (ms d.fields[i] i) d.fields[i]
              (slot1 d.fields[i] (g d.fields[i] i) (fl d.fields[i] i))).2 = [] := by
            rw [eachField, List.flatten_eq_nil_iff] at n2
            exact n2 _ (List.mem_of_getElem? (i := i)
              (by simp [List.getElem?_map, List.getElem?_zipIdx, hf]))
          obtain ⟨q1, hg⟩ := hM n1 i _ hf
          obtain ⟨o, hb, hw⟩ := base_exists d ha ht (hp i _ hf) (List.mem_of_getElem? hf)
            (hfl i _ hf) (hm i _ hf) hg q1 q2
          cases o with
          | none => cases hb with | target _ _ h => rw [htg] at h; cases h
          | some b =>
            rw [setOut, hw] at hs q3
            simp only [FieldStatus.ofOption, transOut] at hs q3
            cases hr : runTransforms (d.fields[i]).transforms b with
            | ok v => rw [hr] at hs; exact ⟨v, hs.symm⟩
            | error e => simp [hr, SynErr.toList] at q3)
      exact ⟨vs, by rw [f2, hvs]; exact unwrapAll_some vs⟩

/-! ## The arms -/

/-- None of the fields is flattened, append or rest. -/
def NoFlat (fields : List (Field V)) : Prop := ∀ f ∈ fields, f.isFlat = false

theorem rank_lt {fields : List (Field V)} {k k' : Nat} {f : Field V} (hf : fields[k]? = some f)
    (hp : f.isParsable = true) (h : k < k') : rank fields k < rank fields k' := by
  have h1 : rank fields (k + 1) = rank fields k + 1 := by
    rw [rank, List.take_add_one, List.countP_append, hf]
    simp [hp, rank]
  have h2 : rank fields (k + 1) ≤ rank fields k' := by
    refine List.Sublist.countP_le ?_
    exact (List.take_prefix_take_left (by omega)).sublist
  omega

theorem NthField.unique {fields : List (Field V)} {j : Nat} {f f' : Field V} {k k' : Nat}
    (h : NthField fields j f k) (h' : NthField fields j f' k') : f = f' ∧ k = k' := by
  obtain ⟨a, b, c⟩ := h
  obtain ⟨a', b', c'⟩ := h'
  have hk : k = k' := by
    rcases Nat.lt_trichotomy k k' with h | h | h
    · have := rank_lt a b h; omega
    · exact h
    · have := rank_lt a' b' h; omega
  subst hk
  rw [a] at a'
  exact ⟨Option.some.inj a', rfl⟩

theorem arms_get (fields : List (Field V)) : ∀ (n j : Nat) (f : Field V) (k : Nat),
    ((fields.zipIdx n).filter fun x => x.1.isParsable)[j]? = some (f, k) ↔
      ∃ k', k = n + k' ∧ NthField fields j f k' := by
  induction fields with
  | nil => intro n j f k; simp [NthField]
  | cons a fields ih =>
    intro n j f k
    have hr : ∀ k', rank (a :: fields) (k' + 1) =
        rank fields k' + if a.isParsable = true then 1 else 0 := by
      intro k'; simp [rank, List.countP_cons]
    rw [List.zipIdx_cons, List.filter_cons]
    by_cases ha : a.isParsable = true
    · simp only [ha, if_true]
      cases j with
      | zero =>
        constructor
        · intro h
          simp at h
          obtain ⟨rfl, rfl⟩ := h
          exact ⟨0, rfl, rfl, ha, rfl⟩
        · rintro ⟨k', rfl, h1, h2, h3⟩
          cases k' with
          | zero => simp at h1; simp [h1]
          | succ k' => rw [hr] at h3; simp [ha] at h3
      | succ j =>
        rw [List.getElem?_cons_succ, ih]
        constructor
        · rintro ⟨k', rfl, h1, h2, h3⟩
          exact ⟨k' + 1, by omega, by simpa using h1, h2, by rw [hr, h3, if_pos ha]⟩
        · rintro ⟨k', rfl, h1, h2, h3⟩
          cases k' with
          | zero => simp [rank] at h3
          | succ k' =>
            rw [hr, if_pos ha] at h3
            exact ⟨k', by omega, by simpa using h1, h2, by omega⟩
    · simp only [ha]
      rw [if_neg (by simp), ih]
      constructor
      · rintro ⟨k', rfl, h1, h2, h3⟩
        exact ⟨k' + 1, by omega, by simpa using h1, h2, by rw [hr, h3, if_neg ha]; rfl⟩
      · rintro ⟨k', rfl, h1, h2, h3⟩
        cases k' with
        | zero => simp at h1; subst h1; exact absurd h2 ha
        | succ k' =>
          rw [hr, if_neg ha] at h3
          exact ⟨k', by omega, by simpa using h1, h2, by omega⟩

/-- The derive forbids `append` and `rest` on positional fields (macros/types/field.rs:1079-1134). -/
def NoAppendRest (fields : List (Field V)) : Prop :=
  ∀ f ∈ fields, f.append.getD false = false ∧ f.rest.getD false = false

theorem NoFlat.noAppendRest {fields : List (Field V)} (h : NoFlat fields) : NoAppendRest fields := by
  intro f hf
  have := h f hf
  simp only [Field.isFlat, Bool.or_eq_false_iff] at this
  exact ⟨this.1.2, this.2⟩

theorem nthArm_eq {fields : List (Field V)} (h : NoAppendRest fields) (j : Nat) :
    nthArm fields j = (fields.zipIdx.filter fun x => x.1.isParsable)[j]? := by
  rw [nthArm]
  congr 1
  refine List.filter_congr fun x hx => ?_
  have := h x.1 (List.fst_mem_of_mem_zipIdx hx)
  simp [this.1, this.2]

theorem nthArm_some {fields : List (Field V)} (h : NoAppendRest fields) {j : Nat} {f : Field V} {k : Nat} :
    nthArm fields j = some (f, k) ↔ NthField fields j f k := by
  rw [nthArm_eq h, arms_get]
  constructor
  · rintro ⟨k', rfl, h⟩; simpa using h
  · intro h; exact ⟨k, by omega, h⟩

theorem arms_length (fields : List (Field V)) (n : Nat) :
    ((fields.zipIdx n).filter fun x => x.1.isParsable).length = fields.countP (·.isParsable) := by
  induction fields generalizing n with
  | nil => rfl
  | cons a fields ih =>
    rw [List.zipIdx_cons, List.filter_cons, List.countP_cons]
    split <;> rename_i h
    · simp only [List.length_cons]
      rw [ih]
    · rw [ih]; simp

theorem nthField_exists {fields : List (Field V)} {j : Nat} (h : j < fields.countP (·.isParsable)) :
    ∃ f k, NthField fields j f k := by
  rw [← arms_length fields 0] at h
  have := List.getElem?_eq_getElem h
  obtain ⟨k, h1, h2⟩ := (arms_get fields 0 j _ _).1 this
  exact ⟨_, k, h2⟩

/-! ## The items -/

/-- The reader of item number `j`. -/
def tupleItem (fields : List (Field V)) (j : Nat) : M Stream V :=
  match nthArm fields j with
  | some (f, _) => f.item.parse .unnamed
  | none => M.fail (.new callSite .unexpectedToken)

/-- Adds item number `j` to the slots. -/
def tupleAdd (fields : List (Field V)) (j : Nat) (acc : Acc (Slots V × Nat)) (x : Except SynErr V) :
    Acc (Slots V × Nat) :=
  ⟨(match nthArm fields j with
    | some (_, k) => acc.val.1.set k (slotOf (some x))
    | none => acc.val.1, acc.val.2),
    match x with | .ok _ => acc.errs | .error e => acc.errs.pushSyn e⟩

theorem unnamedStep_pos {d : Fields V} (hn : NoFlat d.fields) (i : Nat) (k : Acc (Slots V × Nat))
    (s : Stream) (rest : List Stream) (hi : i < d.fields.countP (·.isParsable)) :
    unnamedStep d i (k, s :: rest) =
      posFunc (fun i => recover (tupleItem d.fields i)) (tupleAdd d.fields) i (k, s :: rest) := by
  rw [posFunc_cons]
  obtain ⟨f, j, hf⟩ := nthField_exists hi
  have ha := (nthArm_some hn.noAppendRest).2 hf
  have hfl := hn f (List.mem_of_getElem? hf.1)
  have hinc : ∀ n, tupleIncrement d f n = n := by
    intro n
    rw [tupleIncrement, if_neg]
    simp only [List.any_eq_true, not_exists, not_and]
    intro x hx
    simp [Field.flatParsable, hn x hx]
  have hcall : ∀ n, unnamedCall f n (s :: rest) =
      ((f.item.parse .unnamed s).1, (f.item.parse .unnamed s).2 :: rest) := by
    intro n
    simp only [unnamedCall, hfl, Bool.false_eq_true, if_false]
  simp only [unnamedStep, ha, hcall, recover, tupleItem, tupleAdd, hinc]
  obtain ⟨r, s'⟩ := f.item.parse .unnamed s
  cases r <;> rfl

theorem tupleAdd_length (fields : List (Field V)) (xs : List (Except SynErr V)) :
    ∀ (c : Nat) (acc : Acc (Slots V × Nat)),
      (foldPos (tupleAdd fields) c acc xs).val.1.length = acc.val.1.length := by
  induction xs with
  | nil => intro c acc; rfl
  | cons x xs ih =>
    intro c acc
    rw [foldPos, ih]
    simp only [tupleAdd]
    split <;> simp

/-- The slots after the items. -/
theorem tupleAdd_fold {fields : List (Field V)} (hn : NoAppendRest fields) (xs : List (Except SynErr V)) :
    ∀ (c : Nat) (acc : Acc (Slots V × Nat)), acc.val.1.length = fields.length →
      c + xs.length ≤ fields.countP (·.isParsable) →
      (foldPos (tupleAdd fields) c acc xs).val.2 = acc.val.2 ∧
      (foldPos (tupleAdd fields) c acc xs).errs.toList = acc.errs.toList ++ errMsgs xs ∧
      ∀ (k : Nat) f, fields[k]? = some f →
        (foldPos (tupleAdd fields) c acc xs).val.1[k]? =
          if f.isParsable = true ∧ c ≤ rank fields k ∧ rank fields k < c + xs.length then
            some (slotOf xs[rank fields k - c]?)
          else acc.val.1[k]? := by
  induction xs with
  | nil =>
    intro c acc _ _
    refine ⟨rfl, by simp [foldPos, errMsgs], fun k f hf => ?_⟩
    rw [if_neg (by simp)]; rfl
  | cons x xs ih =>
    intro c acc hl hc
    simp only [List.length_cons] at hc
    obtain ⟨f0, k0, h0⟩ := nthField_exists (fields := fields) (j := c) (by omega)
    have ha := (nthArm_some hn).2 h0
    have hadd : (tupleAdd fields c acc x).val.1 = acc.val.1.set k0 (slotOf (some x)) := by
      simp [tupleAdd, ha]
    obtain ⟨i1, i2, i3⟩ := ih (c + 1) (tupleAdd fields c acc x) (by rw [hadd]; simpa using hl)
      (by omega)
    rw [foldPos]
    refine ⟨i1, ?_, fun k f hf => ?_⟩
    · rw [i2]; cases x <;> simp [tupleAdd, errMsgs]
    · rw [i3 k f hf, hadd]
      by_cases hk : k = k0
      · subst hk
        have hff : f = f0 := by rw [h0.1] at hf; exact (Option.some.inj hf).symm
        subst hff
        have hr := h0.2.2
        have hlt := (List.getElem?_eq_some_iff.1 hf).1
        rw [if_neg (by omega), if_pos ⟨h0.2.1, by omega, by simp; omega⟩]
        rw [List.getElem?_set_self (by omega)]
        simp [hr]
      · by_cases hp : f.isParsable = true
        · have hne : rank fields k ≠ c := fun h => hk (NthField.unique ⟨hf, hp, h⟩ h0).2
          by_cases hin : c + 1 ≤ rank fields k ∧ rank fields k < c + 1 + xs.length
          · rw [if_pos ⟨hp, hin⟩, if_pos ⟨hp, by omega, by simp; omega⟩]
            obtain ⟨m, hm⟩ : ∃ m, rank fields k - c = m + 1 := ⟨rank fields k - c - 1, by omega⟩
            have : rank fields k - (c + 1) = m := by omega
            rw [hm, this, List.getElem?_cons_succ]
          · rw [if_neg (fun h => hin h.2), if_neg (by simp; omega), List.getElem?_set_ne (Ne.symm hk)]
        · rw [if_neg (fun h => hp h.1), if_neg (fun h => hp h.1), List.getElem?_set_ne (Ne.symm hk)]

/-! ## Missing fields -/

theorem missingUnnamed_eq [Env] (d : Fields V) (ht : d.transparent = false) (mode : Mode) (l : List Stream)
    (index : Nat) (fs : List (Field V)) :
    NoFlat fs → (∀ f ∈ fs, ∀ n sp, f.item.missing n sp ≠ .panic) →
    ∀ (sts : Slots V) (errs : Errors) (cur off : Nat) (ms : Field V → Nat → Res V),
      sts.length = fs.length →
      (∀ (i : Nat) f, fs[i]? = some f → ms f (off + i) = f.item.missing (missingIndexName d
        (index + (cur + (fs.take i).countP (!·.isContainer)))) (mode.toFullSpan l)) →
      ∃ sts' errs', missingUnnamed d mode l fs sts errs index cur 0 = .ok (sts', errs') ∧
        sts'.length = fs.length ∧
        (∀ (i : Nat) f st, fs[i]? = some f → sts[i]? = some st →
          sts'[i]? = some (missOut d (ms f (off + i)) f st).1) ∧
        ∀ (F : Field V → Nat → List Msg),
          (∀ (i : Nat) f st, fs[i]? = some f → sts[i]? = some st →
            F f (off + i) = (missOut d (ms f (off + i)) f st).2) →
          errs'.toList = errs.toList ++ ((fs.zipIdx off).map fun x => F x.1 x.2).flatten := by
  induction fs with
  | nil =>
    intro _ _ sts errs cur off ms hl _
    exact ⟨[], errs, by simp [missingUnnamed], rfl, by simp, by simp⟩
  | cons f fs ih =>
    intro hn hm sts errs cur off ms hl hms
    cases sts with
    | nil => simp at hl
    | cons st sts =>
      have hfl := hn f (List.mem_cons_self ..)
      have hff : f.isFlatten = false := by
        simp only [Field.isFlat, Bool.or_eq_false_iff] at hfl; exact hfl.1.1
      have h0 := hms 0 f rfl
      simp only [Nat.add_zero, List.take_zero, List.countP_nil] at h0
      -- the head and the tail put together
      have key : ∀ (st' : FieldStatus V) (errs1 : Errors) (cur1 : Nat),
          (cur1 = cur + if f.isContainer then 0 else 1) →
          missOut d (ms f off) f st = (st', (missOut d (ms f off) f st).2) →
          errs1.toList = errs.toList ++ (missOut d (ms f off) f st).2 →
          missingUnnamed d mode l (f :: fs) (st :: sts) errs index cur 0 =
            (missingUnnamed d mode l fs sts errs1 index cur1 0).map (fun x => (st' :: x.1, x.2)) →
          ∃ sts' errs', missingUnnamed d mode l (f :: fs) (st :: sts) errs index cur 0 =
              .ok (sts', errs') ∧ sts'.length = (f :: fs).length ∧
            (∀ (i : Nat) g st1, (f :: fs)[i]? = some g → (st :: sts)[i]? = some st1 →
              sts'[i]? = some (missOut d (ms g (off + i)) g st1).1) ∧
            ∀ (F : Field V → Nat → List Msg),
              (∀ (i : Nat) g st1, (f :: fs)[i]? = some g → (st :: sts)[i]? = some st1 →
                F g (off + i) = (missOut d (ms g (off + i)) g st1).2) →
              errs'.toList = errs.toList ++
                (((f :: fs).zipIdx off).map fun x => F x.1 x.2).flatten := by
        intro st' errs1 cur1 hcur hmo herr heq
        obtain ⟨sts', errs', a, b, c, e⟩ := ih (fun x hx => hn x (List.mem_cons_of_mem _ hx))
          (fun x hx => hm x (List.mem_cons_of_mem _ hx)) sts errs1 cur1 (off + 1) ms (by simpa using hl)
          (fun i g hg => by
            have := hms (i + 1) g (by simpa using hg)
            rw [Nat.add_assoc, Nat.add_comm 1 i, this, List.take_succ_cons, List.countP_cons, hcur]
            cases f.isContainer <;> simp <;> congr 2 <;> omega)
        refine ⟨st' :: sts', errs', by rw [heq, a]; rfl, by simp [b], ?_, ?_⟩
        · intro i g st1 hg hs
          cases i with
          | zero =>
            simp only [List.getElem?_cons_zero, Option.some.injEq] at hg hs
            subst hg; subst hs
            simp only [List.getElem?_cons_zero, Nat.add_zero]
            rw [hmo]
          | succ i =>
            simp only [List.getElem?_cons_succ] at hg hs
            have := c i g st1 hg hs
            rw [List.getElem?_cons_succ, this, Nat.add_assoc, Nat.add_comm 1 i]
        · intro F hF
          rw [e F (fun i g st1 hg hs => by
            have := hF (i + 1) g st1 (by simpa using hg) (by simpa using hs)
            rw [Nat.add_assoc, Nat.add_comm 1 i]; exact this), herr]
          have := hF 0 f st rfl rfl
          simp only [Nat.add_zero] at this
          rw [List.zipIdx_cons, List.map_cons, List.flatten_cons, this, List.append_assoc]
      by_cases hc : f.isContainer = true
      · refine key (containerSet d f st) errs cur (by simp [hc]) (by simp [missOut, hc])
          (by simp [missOut, hc]) ?_
        simp [missingUnnamed, hc]
      · have hc' : f.isContainer = false := by simpa using hc
        by_cases hd : (f.default.isNone && d.target.isNone && (containerSet d f st).isNone) = true
        · have hd' : (f.default.isNone && d.target.isNone && !f.isFlat &&
              (containerSet d f st).isNone) = true := by
            simp only [Bool.and_eq_true] at hd
            simp [hd.1.1, hd.1.2, hd.2, hfl]
          have hmissing := hm f (List.mem_cons_self ..)
            (missingIndexName d (index + cur + 0)) (mode.toFullSpan l)
          have hmsf : ms f off = f.item.missing (missingIndexName d (index + cur + 0))
            (mode.toFullSpan l) := h0
          have hmo : missOut d (ms f off) f st = match ms f off with
              | .ok v => (.some v, [])
              | .err e => (containerSet d f st, e.toList)
              | .panic => (containerSet d f st, []) := by
            simp only [missOut, hc', ht, Bool.or_false, Bool.false_eq_true, if_false, hd', if_true]
            rfl
          have hmu : missingUnnamed d mode l (f :: fs) (st :: sts) errs index cur 0 =
              match ms f off with
              | .ok v => (missingUnnamed d mode l fs sts errs index (cur + 1) 0).map fun x =>
                  (.some v :: x.1, x.2)
              | .err e => (missingUnnamed d mode l fs sts (errs.pushSyn e) index (cur + 1) 0).map
                  fun x => (containerSet d f st :: x.1, x.2)
              | .panic => .panic := by
            rw [hmsf]
            simp only [missingUnnamed, hc', ht, Bool.or_false, Bool.false_eq_true, if_false, hd, if_true,
              hfl, hff]
            rfl
          cases hr : ms f off with
          | panic => rw [hmsf] at hr; exact absurd hr hmissing
          | ok v =>
            rw [hr] at hmo hmu key
            simp only at hmo hmu
            exact key (.some v) errs (cur + 1) (by simp [hc']) (by rw [hmo]) (by rw [hmo]; simp) hmu
          | err e =>
            rw [hr] at hmo hmu key
            simp only at hmo hmu
            exact key (containerSet d f st) (errs.pushSyn e) (cur + 1) (by simp [hc']) (by rw [hmo])
              (by rw [hmo]; simp) hmu
        · have hd' : (f.default.isNone && d.target.isNone && !f.isFlat &&
              (containerSet d f st).isNone) = false := by
            simp only [hfl, Bool.not_false, Bool.and_true]
            simpa using hd
          have hmo : missOut d (ms f off) f st = (containerSet d f st, []) := by
            simp only [missOut, hc', ht, Bool.or_false, Bool.false_eq_true, if_false, hd']
          refine key (containerSet d f st) errs (cur + 1) (by simp [hc']) (by rw [hmo])
            (by rw [hmo]; simp) ?_
          simp only [missingUnnamed, hc', ht, Bool.or_false, Bool.false_eq_true, if_false, hd, hff]

/-! ## The whole parser -/

theorem errMsgs_nil {xs : List (Except SynErr V)} (h : errMsgs xs = []) {i : Nat} {e : SynErr} :
    xs[i]? ≠ some (.error e) := by
  intro hx
  induction xs generalizing i with
  | nil => simp at hx
  | cons x xs ih =>
    cases i with
    | zero => simp at hx; subst hx; simp [errMsgs, SynErr.toList] at h
    | succ i =>
      cases x with
      | ok v => exact ih (by simpa [errMsgs] using h) (by simpa using hx)
      | error e => simp [errMsgs, SynErr.toList] at h

section
variable [Env]

/-- The state before defaults and transforms, given what was read. -/
theorem unnamedFlat_state (d : Fields V) (ht : d.transparent = false) (hn : NoFlat d.fields)
    (hm : ∀ f ∈ d.fields, ∀ n sp, f.item.missing n sp ≠ .panic)
    (hpos : 0 < d.fields.countP (·.isParsable)) (mode : Mode) (index : Nat) {l rs fatal c l1}
    (h : PosReadsAll (fun i => recover (tupleItem d.fields i)) (d.fields.countP (·.isParsable)) 0 l rs
      fatal c l1) :
    ∃ (S : Slots V) (errs : Errors), S.length = d.fields.length ∧
      (∀ (i : Nat) f, d.fields[i]? = some f → S[i]? = some (slot2 d f
        (posGiven d.fields (rs.map (·.1)) f i) .panic (posMissing d index (mode.toFullSpan l1) f i))) ∧
      errs.toList = errMsgs (rs.map (·.1)) ++ stopMsgs fatal ++ (eachField d.fields fun f i =>
        (missOut d (posMissing d index (mode.toFullSpan l1) f i) f
          (slot1 f (posGiven d.fields (rs.map (·.1)) f i) .panic)).2) ∧
      unnamedFlat d mode index l =
        (finish d (setPass d.fields S errs).1 (setPass d.fields S errs).2, l1) := by
  have hrun := pos_run (func := unnamedStep d) (I := fun _ _ => True) (tupleAdd d.fields)
    (fun i k s rest hi _ => unnamedStep_pos hn i k s rest hi) (fun _ _ _ _ _ => trivial)
    (k := ⟨(d.init, index), Errors.new⟩) trivial h
  have hc := h.count
  have hle := h.le (Nat.zero_le _)
  have hinit : d.init.length = d.fields.length := by simp [Fields.init]
  obtain ⟨f1, f2, f3⟩ := tupleAdd_fold hn.noAppendRest (rs.map (·.1)) 0
    ⟨(d.init, index), Errors.new⟩ hinit (by simp; omega)
  have flen := tupleAdd_length d.fields (rs.map (·.1)) 0 ⟨(d.init, index), Errors.new⟩
  generalize foldPos (tupleAdd d.fields) 0 ⟨(d.init, index), Errors.new⟩ (rs.map (·.1)) = acc at hrun f1 f2 f3 flen
  generalize rs.map (·.1) = xs at f2 f3 ⊢
  have hslot : ∀ (i : Nat) f, d.fields[i]? = some f →
      acc.val.1[i]? = some (slot1 f (posGiven d.fields xs f i) .panic) := by
    intro i f hf
    have hnp : f.flatParsable = false := by
      simp [Field.flatParsable, hn f (List.mem_of_getElem? hf)]
    rw [f3 i f hf]
    simp only [slot1, outOf, hnp, Bool.false_eq_true, if_false, flatSlot, posGiven, Nat.zero_le, true_and,
      Nat.zero_add, Nat.sub_zero]
    by_cases hp : f.isParsable = true
    · simp only [hp, true_and, if_true]
      by_cases hr : rank d.fields i < xs.length
      · rw [if_pos hr]
      · rw [if_neg hr, List.getElem?_eq_none (l := xs) (by omega)]
        simp [Fields.init, hf, slotOf]
    · simp [hp, Fields.init, hf, slotOf]
  obtain ⟨sts', errs', m1, m2, m3, m4⟩ := missingUnnamed_eq d ht mode l1 index d.fields hn hm acc.val.1
    (match posOut fatal c with | .err e => acc.errs.pushSyn e | _ => acc.errs) 0 0
    (posMissing d index (mode.toFullSpan l1)) (by rw [flen, hinit])
    (fun i f hf => by simp [posMissing])
  refine ⟨sts', errs', m2, ?_, ?_, ?_⟩
  · intro i f hf
    have := m3 i f _ hf (hslot i f hf)
    rw [Nat.zero_add] at this
    exact this
  · rw [m4 (fun f i => (missOut d (posMissing d index (mode.toFullSpan l1) f i) f
          (slot1 f (posGiven d.fields xs f i) .panic)).2) (fun i f st hf hs => by
        rw [hslot i f hf] at hs; cases hs; rw [Nat.zero_add]), eachField]
    congr 1
    cases fatal <;> simp [posOut, stopMsgs, f2]
  · simp only [unnamedFlat]
    rw [if_neg (by omega), hrun]
    have hne : posOut fatal c ≠ .panic := by cases fatal <;> simp [posOut]
    cases fatal with
    | none =>
      simp only [posOut, postUnnamed, f1] at m1 ⊢
      rw [m1]
    | some e =>
      simp only [posOut, postUnnamed, f1] at m1 ⊢
      rw [m1]

omit [Env] in
theorem posGiven_plain {d : Fields V} (hn : NoFlat d.fields) {xs : List (Except SynErr V)} {i : Nat}
    {f : Field V} (hf : d.fields[i]? = some f) (h : ¬ f.Plain) : posGiven d.fields xs f i = none := by
  have hfl := hn f (List.mem_of_getElem? hf)
  have : f.isParsable = false := by
    cases hp : f.isParsable with
    | false => rfl
    | true => exact absurd ⟨hfl, hp⟩ h
  simp [posGiven, this]

omit [Env] in
theorem stopMsgs_nil {fatal : Option SynErr} : stopMsgs fatal = [] ↔ fatal = none := by
  cases fatal <;> simp [stopMsgs, SynErr.toList]

omit [Env] in
theorem noFlat_parsable {d : Fields V} (hn : NoFlat d.fields) {i : Nat} {f : Field V}
    (hf : d.fields[i]? = some f) : f.flatParsable = false := by
  simp [Field.flatParsable, hn f (List.mem_of_getElem? hf)]

/-- Success of a tuple structure without flattened fields, on any input. -/
theorem unnamedFlat_ok (d : Fields V) (ha : Accepted d) (ht : d.transparent = false)
    (hn : NoFlat d.fields) (hm : ∀ f ∈ d.fields, ∀ n sp, f.item.missing n sp ≠ .panic)
    (hpos : 0 < d.fields.countP (·.isParsable)) (mode : Mode) (index : Nat) {l rs fatal c l1}
    (h : PosReadsAll (fun i => recover (tupleItem d.fields i)) (d.fields.countP (·.isParsable)) 0 l rs
      fatal c l1) (vs : List V) :
    (unnamedFlat d mode index l).2 = l1 ∧
    ((unnamedFlat d mode index l).1 = .ok vs ↔ fatal = none ∧ errMsgs (rs.map (·.1)) = [] ∧
      vs.length = d.fields.length ∧ ∀ (i : Nat) f, d.fields[i]? = some f → ∃ v, vs[i]? = some v ∧
        PosHolds d index (mode.toFullSpan l1) (rs.map (·.1)) f i v) := by
  obtain ⟨S, errs, s1, s2, s3, s4⟩ := unnamedFlat_state d ht hn hm hpos mode index h
  rw [s4]
  refine ⟨rfl, ?_⟩
  simp only
  generalize rs.map (·.1) = xs at s2 s3 ⊢
  have hpost := post_ok d ha ht (posGiven d.fields xs) (fun _ _ => .panic)
    (posMissing d index (mode.toFullSpan l1)) (fun i f hf hp => posGiven_plain hn hf hp)
    (fun i f hf hp => by rw [noFlat_parsable hn hf] at hp; cases hp)
    (fun i f hf => hm f (List.mem_of_getElem? hf) _ _) s1 s2 s3
    (fun hM i f hf => by
      rw [List.append_eq_nil_iff] at hM
      refine ⟨by simp [outOf, noFlat_parsable hn hf, flatMsg], fun e he => ?_⟩
      simp only [posGiven] at he
      split at he
      · exact errMsgs_nil hM.1 he
      · cases he) vs
  rw [hpost, List.append_eq_nil_iff, stopMsgs_nil]
  constructor
  · rintro ⟨⟨a, b⟩, c⟩; exact ⟨b, a, c⟩
  · rintro ⟨a, b, c⟩; exact ⟨⟨b, a⟩, c⟩

/-- Every message of a tuple structure without flattened fields, on any input. -/
theorem unnamedFlat_msgs (d : Fields V) (ha : Accepted d) (ht : d.transparent = false)
    (hn : NoFlat d.fields) (hm : ∀ f ∈ d.fields, ∀ n sp, f.item.missing n sp ≠ .panic)
    (hpos : 0 < d.fields.countP (·.isParsable)) (mode : Mode) (index : Nat) {l rs fatal c l1}
    (h : PosReadsAll (fun i => recover (tupleItem d.fields i)) (d.fields.countP (·.isParsable)) 0 l rs
      fatal c l1) :
    ∃ trans : List (List Msg), trans.length = d.fields.length ∧
      (∀ (i : Nat) f, d.fields[i]? = some f → ∃ m, trans[i]? = some m ∧
        TransMsgs d f (posGiven d.fields (rs.map (·.1)) f i) .panic
          (posMissing d index (mode.toFullSpan l1) f i) m) ∧
      ∀ msgs, msgs = errMsgs (rs.map (·.1)) ++ stopMsgs fatal ++
          eachField d.fields (posMissingMsgs d index (mode.toFullSpan l1) (rs.map (·.1))) ++
          trans.flatten →
        (msgs ≠ [] → FailsWith (unnamedFlat d mode index l).1 msgs) ∧
        (msgs = [] → ∃ vs, (unnamedFlat d mode index l).1 = .ok vs) := by
  obtain ⟨S, errs, s1, s2, s3, s4⟩ := unnamedFlat_state d ht hn hm hpos mode index h
  rw [s4]
  simp only
  generalize rs.map (·.1) = xs at s2 s3 ⊢
  have hmm : (eachField d.fields fun f i =>
        (missOut d (posMissing d index (mode.toFullSpan l1) f i) f
          (slot1 f (posGiven d.fields xs f i) .panic)).2) =
      eachField d.fields (posMissingMsgs d index (mode.toFullSpan l1) xs) := by
    rw [eachField, eachField]
    congr 1
    apply List.map_congr_left
    rintro ⟨f, i⟩ hx
    obtain ⟨_, hx⟩ := List.mem_zipIdx_iff_getElem?.1 hx |> fun h => (⟨trivial, h⟩ : True ∧ _)
    have hf : d.fields[i]? = some f := by simpa using hx
    simp only [posMissingMsgs]
    have hfl := hn f (List.mem_of_getElem? hf)
    have hs1 : slot1 f (posGiven d.fields xs f i) .panic = slotOf (posGiven d.fields xs f i) := by
      simp [slot1, outOf, noFlat_parsable hn hf, flatSlot]
    rw [hs1]
    by_cases hp : f.isParsable = true
    · have hnn : (slotOf (posGiven d.fields xs f i)).isNone = decide (xs.length ≤ rank d.fields i) := by
        simp only [posGiven, hp, if_true]
        by_cases hr : rank d.fields i < xs.length
        · rw [List.getElem?_eq_getElem hr, slotOf_isNone]; simp; omega
        · rw [List.getElem?_eq_none (by omega)]; simp [slotOf, FieldStatus.isNone]; omega
      simp only [missOut, containerSet_parsable d hp, plain_not_container hp, ht, hfl, hnn]
      cases hd : f.default with
      | some v => simp
      | none =>
        cases htg : d.target with
        | some t => simp
        | none =>
          by_cases hr : xs.length ≤ rank d.fields i
          · simp [hr, hp]
            cases posMissing d index (mode.toFullSpan l1) f i <;> rfl
          · simp [hr]
    · have hp' : f.isParsable = false := by simpa using hp
      simp only [posGiven, hp', Bool.false_eq_true, if_false, slotOf, false_and, missOut]
      split
      · rfl
      · rename_i hc
        rcases ha.filled f (List.mem_of_getElem? hf) hp' with h | h | h
        · obtain ⟨v, hv⟩ := Option.isSome_iff_exists.1 h
          simp [hv]
        · obtain ⟨v, hv⟩ := Option.isSome_iff_exists.1 h
          simp [hv]
        · simp [h.1] at hc
  have := post_msgs d ha ht (posGiven d.fields xs) (fun _ _ => .panic)
    (posMissing d index (mode.toFullSpan l1)) (fun i f hf hp => posGiven_plain hn hf hp)
    (fun i f hf hp => by rw [noFlat_parsable hn hf] at hp; cases hp)
    (fun i f hf => hm f (List.mem_of_getElem? hf) _ _) s1 s2 s3
    (fun hM i f hf => by
      rw [List.append_eq_nil_iff] at hM
      refine ⟨by simp [outOf, noFlat_parsable hn hf, flatMsg], fun e he => ?_⟩
      simp only [posGiven] at he
      split at he
      · exact errMsgs_nil hM.1 he
      · cases he)
  rw [hmm] at this
  exact this

end

end Deluxe
