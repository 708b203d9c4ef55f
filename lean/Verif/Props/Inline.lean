import Verif.Props.Flatten
import Verif.Props.EnumKeys
import Verif.Lemmas.EnumOut
/-!
# C82: a flattened structure is read like fields of the outer structure

macros/types/field.rs:315-388 (the flat pass), 393-470 (the names of flattened fields).
-/
namespace Deluxe

variable {V : Type}

section
variable [Env]

/-- What an item is for a list of fields: its key, the span of the key and, if a field takes it, the position of that
field and what the field reads. -/
abbrev Keyed (V : Type) := Str × Span × Option (Nat × Except SynErr V)

/-- The tokens are a key and a value without comma. If a field takes the key, it reads the value. -/
inductive KeyedSeg (fields : List (Field V)) (v rest : List Tok) (sc : Span) : Keyed V → Prop
  | field {segs sp vt f i x} : KeyToks segs sp v vt → NoComma vt → Owns fields [] (keyString segs) f i →
      ReadsAs (f.item.named (f.idents.headD []) sp) vt rest sc x →
      KeyedSeg fields v rest sc (keyString segs, sp, some (i, x))
  | other {segs sp vt} : KeyToks segs sp v vt → NoComma vt → (∀ f i, ¬ Owns fields [] (keyString segs) f i) →
      KeyedSeg fields v rest sc (keyString segs, sp, none)

omit [Env] in
/-- The item as `StructSeg` has it. -/
def Keyed.item (fields : List (Field V)) (k : Keyed V) : SItem V :=
  match k.2.2 with
  | none => .other k.1 k.2.1
  | some (i, x) => .field i (((fields[i]?).map (·.idents.headD [])).getD []) k.2.1 x

theorem KeyedSeg.struct {fields : List (Field V)} {v rest : List Tok} {sc : Span} {k : Keyed V}
    (h : KeyedSeg fields v rest sc k) : StructSeg fields [] v rest sc (k.item fields) := by
  cases h with
  | @field segs sp vt f i x h1 h2 h3 h4 =>
    have hi : fields[i]? = some f := by obtain ⟨_, _, h, _⟩ := h3; exact h
    simp only [Keyed.item, hi, Option.map_some, Option.getD_some]
    exact .field h1 h3 h4
  | other h1 h2 h3 => exact .other h1 h3 h2

omit [Env] in
theorem keyed_given (fields : List (Field V)) (i : Nat) (ks : List (Keyed V)) :
    given i (ks.map (Keyed.item fields)) =
      ks.findSome? fun k => k.2.2.bind fun y => if y.1 = i then some y.2 else none := by
  induction ks with
  | nil => rfl
  | cons k ks ih =>
    obtain ⟨key, sp, o⟩ := k
    rcases o with _ | ⟨j, x⟩
    · simp only [List.map_cons, Keyed.item, given, ih, List.findSome?_cons, Option.bind_none]
    · simp only [List.map_cons, Keyed.item, given, ih, List.findSome?_cons, Option.bind_some]
      split <;> rfl

/-- The positions of the fields that take items. -/
def Keyed.owners (ks : List (Keyed V)) : List Nat := ks.filterMap fun k => k.2.2.map (·.1)

omit [Env] in
theorem keyed_owners (fields : List (Field V)) (ks : List (Keyed V)) :
    owners (ks.map (Keyed.item fields)) = Keyed.owners ks := by
  induction ks with
  | nil => rfl
  | cons k ks ih =>
    obtain ⟨key, sp, o⟩ := k
    rcases o with _ | ⟨j, x⟩
    · simpa only [List.map_cons, Keyed.item, Deluxe.owners, Keyed.owners, List.filterMap_cons, Option.map_none] using ih
    · simp only [List.map_cons, Keyed.item, Deluxe.owners, ih, Keyed.owners, List.filterMap_cons, Option.map_some]

omit [Env] in
theorem keyed_itemsOk (fields : List (Field V)) (check : Bool) (allowed : List Str) (ks : List (Keyed V)) :
    ItemsOk check allowed (ks.map (Keyed.item fields)) ↔ (Keyed.owners ks).Nodup ∧
      (∀ k ∈ ks, ∀ i x, k.2.2 = some (i, x) → ∃ v, x = .ok v) ∧
      (∀ k ∈ ks, k.2.2 = none → check = true → k.1 ∈ allowed) := by
  constructor
  · rintro ⟨h1, h2, h3⟩
    refine ⟨keyed_owners fields ks ▸ h1, ?_, ?_⟩
    · rintro ⟨key, sp, o⟩ hk i x rfl
      exact h2 i _ sp x (List.mem_map.2 ⟨_, hk, rfl⟩)
    · rintro ⟨key, sp, o⟩ hk rfl hc
      exact h3 key sp (List.mem_map.2 ⟨_, hk, rfl⟩) hc
  · rintro ⟨h1, h2, h3⟩
    refine ⟨(keyed_owners fields ks).symm ▸ h1, ?_, ?_⟩
    · intro i name sp x hm
      obtain ⟨⟨key, sp', o⟩, hk, he⟩ := List.mem_map.1 hm
      rcases o with _ | ⟨j, y⟩
      · cases he
      · cases he; exact h2 _ hk _ _ rfl
    · intro key sp hm hc
      obtain ⟨⟨key', sp', o⟩, hk, he⟩ := List.mem_map.1 hm
      rcases o with _ | ⟨j, y⟩
      · cases he; exact h3 _ hk rfl hc
      · cases he

/-! ## The outer structure with the fields of the inner one in place of the flattened field -/

section
omit [Env]
variable (A I B : List (Field V)) (f : Field V)

/-- The position in `A ++ f :: B` of a field of `A ++ I ++ B` that is not of `I`. -/
def outPos (n m i : Nat) : Option Nat := if i < n then some i else if i < n + m then none else some (i - m + 1)

/-- The position in `I` of a field of `A ++ I ++ B`. -/
def inPos (n m i : Nat) : Option Nat := if i < n then none else if i < n + m then some (i - n) else none

def Keyed.mapPos (g : Nat → Option Nat) (k : Keyed V) : Keyed V :=
  (k.1, k.2.1, k.2.2.bind fun y => (g y.1).map fun j => (j, y.2))

theorem given_mapPos {g : Nat → Option Nat} {i j : Nat} (hg : ∀ a, g a = some j ↔ a = i) (ks : List (Keyed V)) :
    ((ks.map (Keyed.mapPos g)).findSome? fun k => k.2.2.bind fun y => if y.1 = j then some y.2 else none) =
      ks.findSome? fun k => k.2.2.bind fun y => if y.1 = i then some y.2 else none := by
  rw [List.findSome?_map]
  congr 1
  funext k
  obtain ⟨key, sp, o⟩ := k
  rcases o with _ | ⟨a, x⟩
  · rfl
  · simp only [Function.comp, Keyed.mapPos, Option.bind_some]
    have := hg a
    cases hga : g a with
    | none =>
      rw [hga] at this
      rw [if_neg (fun h => by simpa using this.2 h)]
      rfl
    | some b =>
      rw [hga, Option.some.injEq] at this
      simp only [Option.map_some, Option.bind_some, this]

theorem owners_mapPos (g : Nat → Option Nat) (ks : List (Keyed V)) :
    Keyed.owners (ks.map (Keyed.mapPos g)) = (Keyed.owners ks).filterMap g := by
  simp only [Keyed.owners, List.filterMap_map, List.filterMap_filterMap]
  congr 1
  funext k
  obtain ⟨key, sp, o⟩ := k
  rcases o with _ | ⟨a, x⟩
  · rfl
  · simp only [Function.comp, Keyed.mapPos, Option.bind_some, Option.map_map, Option.map_some]
    cases g a <;> rfl

theorem outPos_lt {n m i : Nat} (h : i < n) (a : Nat) : outPos n m a = some i ↔ a = i := by
  unfold outPos; split
  · simp
  · split
    · simp; omega
    · simp; omega

theorem outPos_ge {n m t : Nat} (a : Nat) : outPos n m a = some (n + 1 + t) ↔ a = n + m + t := by
  unfold outPos; split
  · simp; omega
  · split
    · simp; omega
    · simp; omega

theorem inPos_eq {n m t : Nat} (h : t < m) (a : Nat) : inPos n m a = some t ↔ a = n + t := by
  unfold inPos; split
  · simp; omega
  · split
    · simp; omega
    · simp; omega

theorem nodup_split (n m : Nat) (l : List Nat) :
    l.Nodup ↔ (l.filterMap (outPos n m)).Nodup ∧ (l.filterMap (inPos n m)).Nodup := by
  induction l with
  | nil => simp
  | cons a l ih =>
    rw [List.nodup_cons, ih, List.filterMap_cons, List.filterMap_cons]
    by_cases h1 : a < n
    · have ho : outPos n m a = some a := by simp [outPos, h1]
      have hi : inPos n m a = none := by simp [inPos, h1]
      rw [ho, hi]
      simp only [List.nodup_cons, List.mem_filterMap, outPos_lt h1, exists_eq_right, and_assoc]
    · by_cases h2 : a < n + m
      · have ho : outPos n m a = none := by simp [outPos, h1, h2]
        have hi : inPos n m a = some (a - n) := by simp [inPos, h1, h2]
        rw [ho, hi]
        have h3 : ∀ b, inPos n m b = some (a - n) ↔ b = a := fun b => by
          rw [inPos_eq (by omega)]; omega
        simp only [List.nodup_cons, List.mem_filterMap, h3, exists_eq_right]
        exact ⟨fun ⟨a, b, c⟩ => ⟨b, a, c⟩, fun ⟨a, b, c⟩ => ⟨b, a, c⟩⟩
      · have ho : outPos n m a = some (a - m + 1) := by simp [outPos, h1, h2]
        have hi : inPos n m a = none := by simp [inPos, h1, h2]
        rw [ho, hi]
        have h3 : ∀ b, outPos n m b = some (a - m + 1) ↔ b = a := fun b => by
          rw [show a - m + 1 = n + 1 + (a - m - n) by omega, outPos_ge]; omega
        simp only [List.nodup_cons, List.mem_filterMap, h3, exists_eq_right, and_assoc]

/-- No key belongs to a field of `I` and to another field. -/
def Apart (I A B : List (Field V)) : Prop :=
  ∀ x ∈ I, x.Plain → ∀ y ∈ A ++ B, y.Plain → ∀ k ∈ x.idents, k ∉ y.idents

variable {A I B f}

theorem get_A {C D : List (Field V)} {i : Nat} (h : i < A.length) : (A ++ C)[i]? = (A ++ D)[i]? := by
  rw [List.getElem?_append_left h, List.getElem?_append_left h]

theorem get_I {t : Nat} (h : t < I.length) : (A ++ (I ++ B))[A.length + t]? = I[t]? := by
  rw [List.getElem?_append_right (by omega), List.getElem?_append_left (by omega)]
  congr 1; omega

theorem get_B (t : Nat) : (A ++ (I ++ B))[A.length + I.length + t]? = B[t]? := by
  rw [List.getElem?_append_right (by omega), List.getElem?_append_right (by omega)]
  congr 1; omega

theorem get_B' (t : Nat) : (A ++ f :: B)[A.length + 1 + t]? = B[t]? := by
  rw [List.getElem?_append_right (by omega)]
  rw [show A.length + 1 + t - A.length = t + 1 by omega]
  rfl

theorem get_f : (A ++ f :: B)[A.length]? = some f := by
  rw [List.getElem?_append_right (Nat.le_refl _), Nat.sub_self]; rfl

theorem owns_A {C D : List (Field V)} {key : Str} {g : Field V} {i : Nat} (h : i < A.length) :
    Owns (A ++ C) [] key g i ↔ Owns (A ++ D) [] key g i := by
  constructor <;>
  · rintro ⟨k, hk, hi, hp, hm, hj⟩
    exact ⟨k, hk, get_A h ▸ hi, hp, hm, fun j g' hlt hg' => hj j g' hlt (by rw [get_A (by omega), hg'])⟩

theorem mem_of_get {l : List (Field V)} {i : Nat} {g : Field V} (h : l[i]? = some g) : g ∈ l := List.mem_of_getElem? h

theorem owns_I (hap : Apart I A B) {key : Str} {g : Field V} {t : Nat} (h : t < I.length) :
    Owns (A ++ (I ++ B)) [] key g (A.length + t) ↔ Owns I [] key g t := by
  constructor
  · rintro ⟨k, hk, hi, hp, hm, hj⟩
    rw [get_I h] at hi
    refine ⟨k, hk, hi, hp, hm, fun j g' hlt hg' => hj (A.length + j) g' (by omega) ?_⟩
    rw [get_I (by omega), hg']
  · rintro ⟨k, hk, hi, hp, hm, hj⟩
    refine ⟨k, hk, by rw [get_I h, hi], hp, hm, fun j g' hlt hg' hp' hm' => ?_⟩
    by_cases hjA : j < A.length
    · have : g' ∈ A := mem_of_get (by rw [← hg', List.getElem?_append_left hjA])
      exact hap g (mem_of_get hi) hp g' (List.mem_append_left _ this) hp' k hm hm'
    · obtain ⟨s, rfl⟩ := Nat.exists_eq_add_of_le (Nat.le_of_not_lt hjA)
      rw [get_I (by omega)] at hg'
      exact hj s g' (by omega) hg' hp' hm'

theorem owns_B (hap : Apart I A B) (hf : ¬ f.Plain) {key : Str} {g : Field V} {t : Nat} :
    Owns (A ++ (I ++ B)) [] key g (A.length + I.length + t) ↔ Owns (A ++ f :: B) [] key g (A.length + 1 + t) := by
  constructor
  · rintro ⟨k, hk, hi, hp, hm, hj⟩
    rw [get_B] at hi
    refine ⟨k, hk, by rw [get_B', hi], hp, hm, fun j g' hlt hg' hp' => ?_⟩
    by_cases hjA : j < A.length
    · exact hj j g' (by omega) (by rw [← hg']; exact get_A hjA) hp'
    · by_cases hjn : j = A.length
      · subst hjn
        rw [get_f] at hg'
        cases hg'
        exact absurd hp' hf
      · obtain ⟨s, rfl⟩ := Nat.exists_eq_add_of_le (show A.length + 1 ≤ j by omega)
        rw [get_B'] at hg'
        exact hj (A.length + I.length + s) g' (by omega) (by rw [get_B, hg']) hp'
  · rintro ⟨k, hk, hi, hp, hm, hj⟩
    rw [get_B'] at hi
    refine ⟨k, hk, by rw [get_B, hi], hp, hm, fun j g' hlt hg' hp' hm' => ?_⟩
    by_cases hjA : j < A.length
    · exact hj j g' (by omega) (by rw [← hg']; exact get_A hjA) hp' hm'
    · obtain ⟨s, rfl⟩ := Nat.exists_eq_add_of_le (Nat.le_of_not_lt hjA)
      by_cases hs : s < I.length
      · rw [get_I hs] at hg'
        exact hap g' (mem_of_get hg') hp' g (List.mem_append_right _ (mem_of_get hi)) hp k hm' hm
      · obtain ⟨q, rfl⟩ := Nat.exists_eq_add_of_le (Nat.le_of_not_lt hs)
        rw [← Nat.add_assoc, get_B] at hg'
        exact hj (A.length + 1 + q) g' (by omega) (by rw [get_B', hg']) hp' hm'

theorem Owns.lt {fields : List (Field V)} {pre key : Str} {g : Field V} {i : Nat} (h : Owns fields pre key g i) :
    i < fields.length := by
  obtain ⟨_, _, h, _⟩ := h
  exact (List.getElem?_eq_some_iff.1 h).1

theorem owns_out (hap : Apart I A B) (hf : ¬ f.Plain) {key : Str} {g : Field V} {i : Nat}
    (h : Owns (A ++ f :: B) [] key g i) : ∃ j, Owns (A ++ (I ++ B)) [] key g j ∧ outPos A.length I.length j = some i := by
  by_cases h1 : i < A.length
  · exact ⟨i, (owns_A h1).1 h, (outPos_lt h1 _).2 rfl⟩
  · by_cases h2 : i = A.length
    · subst h2
      obtain ⟨_, _, hi, hp, _⟩ := h
      rw [get_f] at hi
      cases hi
      exact absurd hp hf
    · obtain ⟨s, rfl⟩ := Nat.exists_eq_add_of_le (show A.length + 1 ≤ i by omega)
      exact ⟨A.length + I.length + s, (owns_B hap hf).2 h, (outPos_ge _).2 rfl⟩

theorem owns_in (hap : Apart I A B) {key : Str} {g : Field V} {i : Nat} (h : Owns I [] key g i) :
    ∃ j, Owns (A ++ (I ++ B)) [] key g j ∧ inPos A.length I.length j = some i :=
  ⟨A.length + i, (owns_I hap h.lt).2 h, (inPos_eq h.lt _).2 rfl⟩

theorem Owns.unique {fields : List (Field V)} {pre key : Str} {g g' : Field V} {i i' : Nat}
    (h : Owns fields pre key g i) (h' : Owns fields pre key g' i') : i = i' ∧ g = g' := by
  obtain ⟨k, hk, hi, hp, hm, hj⟩ := h
  obtain ⟨k', hk', hi', hp', hm', hj'⟩ := h'
  obtain rfl : k = k' := List.append_cancel_left (hk.symm.trans hk')
  have : i = i' := by
    rcases Nat.lt_trichotomy i i' with h | h | h
    · exact absurd hm (hj' i g h hi hp)
    · exact h
    · exact absurd hm' (hj i' g' h hi' hp')
  subst this
  rw [hi] at hi'
  cases hi'
  exact ⟨rfl, rfl⟩
end

variable {A I B : List (Field V)} {f : Field V}

theorem KeyedSeg.mapPos {F G : List (Field V)} {p : Nat → Option Nat}
    (h1 : ∀ key g j i, Owns F [] key g j → p j = some i → Owns G [] key g i)
    (h2 : ∀ key g i, Owns G [] key g i → ∃ j, Owns F [] key g j ∧ p j = some i)
    {v rest : List Tok} {sc : Span} {k : Keyed V} (h : KeyedSeg F v rest sc k) :
    KeyedSeg G v rest sc (k.mapPos p) := by
  cases h with
  | @field segs sp vt g i x a b c d =>
    cases hp : p i with
    | none =>
      simp only [Keyed.mapPos, Option.bind_some, hp, Option.map_none]
      refine .other a b fun g' i' ho => ?_
      obtain ⟨j, hj, hpj⟩ := h2 _ _ _ ho
      obtain ⟨rfl, rfl⟩ := c.unique hj
      rw [hp] at hpj
      cases hpj
    | some j =>
      simp only [Keyed.mapPos, Option.bind_some, hp, Option.map_some]
      exact .field a b (h1 _ _ _ _ c hp) d
  | other a b c =>
    simp only [Keyed.mapPos, Option.bind_none]
    refine .other a b fun g' i' ho => ?_
    obtain ⟨j, hj, hpj⟩ := h2 _ _ _ ho
    exact c _ _ hj

theorem KeyedSeg.out (hap : Apart I A B) (hf : ¬ f.Plain) {v rest : List Tok} {sc : Span} {k : Keyed V}
    (h : KeyedSeg (A ++ (I ++ B)) v rest sc k) :
    KeyedSeg (A ++ f :: B) v rest sc (k.mapPos (outPos A.length I.length)) := by
  refine h.mapPos (fun key g j i ho hp => ?_) fun key g i => owns_out hap hf
  by_cases h1 : j < A.length
  · simp only [outPos, h1, if_true, Option.some.injEq] at hp
    subst hp
    exact (owns_A h1).1 ho
  · by_cases h2 : j < A.length + I.length
    · simp [outPos, h1, h2] at hp
    · obtain ⟨s, rfl⟩ := Nat.exists_eq_add_of_le (Nat.le_of_not_lt h2)
      rw [(outPos_ge (n := A.length) (m := I.length) (t := s) _).2 rfl, Option.some.injEq] at hp
      subst hp
      exact (owns_B hap hf).1 ho

theorem KeyedSeg.inn (hap : Apart I A B) {v rest : List Tok} {sc : Span} {k : Keyed V}
    (h : KeyedSeg (A ++ (I ++ B)) v rest sc k) :
    KeyedSeg I v rest sc (k.mapPos (inPos A.length I.length)) := by
  refine h.mapPos (fun key g j i ho hp => ?_) fun key g i => owns_in hap
  by_cases h1 : j < A.length
  · simp [inPos, h1] at hp
  · obtain ⟨s, rfl⟩ := Nat.exists_eq_add_of_le (Nat.le_of_not_lt h1)
    by_cases h2 : s < I.length
    · rw [(inPos_eq h2 _).2 rfl, Option.some.injEq] at hp
      subst hp
      exact (owns_I hap h2).1 ho
    · simp [inPos, h2] at hp


omit [Env] in
theorem source_congr {d d' : Fields V} {f : Field V} {g : Option (Except SynErr V)} {fl fl' ms ms' : Res V}
    {o : Option V} (ht : d.target = none) (ht' : d'.target = none) (ho : f.isContainer = true → d.obj = d'.obj)
    (hfl : f.flatParsable = true → ∀ v, fl = .ok v → fl' = .ok v) (hms : ∀ v, ms = .ok v → ms' = .ok v)
    (h : Source d f g fl ms o) : Source d' f g fl' ms' o := by
  have hng : NotGiven d f g → NotGiven d' f g := by
    rintro (h | ⟨h1, h2⟩)
    · exact .inl h
    · exact .inr ⟨h1, fun ⟨a, b⟩ => h2 ⟨a, by rw [ho a]; exact b⟩⟩
  cases h with
  | item h1 h2 => exact .item h1 h2
  | flat h1 h2 => exact .flat h1 (hfl h1 _ h2)
  | container h1 h2 => exact .container h1 (ho h1 ▸ h2)
  | default h1 h2 => exact .default (hng h1) h2
  | missing h1 h2 h3 h4 h5 => exact .missing h1 h2 h3 ht' (hms _ h5)
  | target h1 h2 h3 => rw [ht] at h3; cases h3

omit [Env] in
theorem ends_congr {d d' : Fields V} {f : Field V} {g g' : Option (Except SynErr V)} {fl fl' ms ms' : Res V} {i i' : Nat}
    {v : V} (ht : d.target = none) (ht' : d'.target = none) (ho : f.isContainer = true → d.obj = d'.obj)
    (hg : g = g') (hfl : f.flatParsable = true → ∀ v, fl = .ok v ↔ fl' = .ok v) (hms : ∀ v, ms = .ok v ↔ ms' = .ok v) :
    Ends d f g fl ms i v ↔ Ends d' f g' fl' ms' i' v := by
  subst hg
  constructor
  · rintro (⟨b, h1, h2⟩ | ⟨_, t, h, _⟩)
    · exact .inl ⟨b, source_congr ht ht' ho (fun h v => (hfl h v).1) (fun v => (hms v).1) h1, h2⟩
    · rw [ht] at h; cases h
  · rintro (⟨b, h1, h2⟩ | ⟨_, t, h, _⟩)
    · exact .inl ⟨b, source_congr ht' ht (fun h => (ho h).symm) (fun h v => (hfl h v).2) (fun v => (hms v).2) h1, h2⟩
    · rw [ht'] at h; cases h

/-- What the theorems below ask of the two structures: the outer one has the fields `A`, `f`, `B` and no default, the
inner one has no rest field, no default, and no key in common with the other fields of the outer one. -/
structure Inlines (d inner : Fields V) (A B : List (Field V)) (f : Field V) : Prop where
  fields : d.fields = A ++ f :: B
  flat : f.flatParsable = true
  plain : f.isContainer = false
  transforms : f.transforms = []
  target : d.target = none
  target' : inner.target = none
  accepted : Accepted d
  accepted' : Accepted inner
  transparent : d.transparent = false
  transparent' : inner.transparent = false
  good : FieldsGood d.fields
  good' : FieldsGood inner.fields
  noRest : ∀ x ∈ inner.fields, x.flatParsable = true → x.rest.getD false = false
  apart : Apart inner.fields A B
  obj : ∀ x ∈ inner.fields, x.isContainer = true → inner.obj = d.obj
  missing : ∀ x ∈ inner.fields, ∀ sp v, x.item.missing (missingName inner [] x) sp = .ok v ↔
    x.item.missing (missingName d [] x) sp = .ok v

/-- The structure with the fields of the inner one in place of the flattened field. -/
def Fields.inlined (d inner : Fields V) (A B : List (Field V)) : Fields V :=
  { d with fields := A ++ (inner.fields ++ B) }

omit [Env] in
theorem fork_fork (l : List Stream) : forkInputs (forkInputs l) = forkInputs l := by
  simp [forkInputs, Stream.fork]

theorem keyedAll_struct {F : List (Field V)} {l : List Stream} {ks : List (Keyed V)} (h : ItemsAll (KeyedSeg F) l ks) :
    ItemsAll (StructSeg F []) l (ks.map (Keyed.item F)) := h.map fun _ _ _ _ hb => hb.struct

theorem inlines_fork {inner : Fields V} (ha : Accepted inner) (ht : inner.transparent = false) (htg : inner.target = none)
    (hg : FieldsGood inner.fields) (allowed : List Str) (span : Span)
    {l l' : List Stream} {ks : List (Keyed V)} (h : ItemsAll (KeyedSeg inner.fields) l ks)
    (h' : ItemsAll (KeyedSeg inner.fields) l' ks)
    (hn : ∀ (i : Nat) x, inner.fields[i]? = some x → x.flatParsable = true → ∀ v,
      flatOut inner.fields [] span allowed l x i = .ok v ↔ flatOut inner.fields [] span allowed l' x i = .ok v)
    (ws : List V) :
    (namedFlat inner allowed (.named span) [] false l).1 = .ok ws ↔
      (namedFlat inner allowed (.named span) [] false l').1 = .ok ws := by
  rw [c31_struct inner ha ht hg allowed (.named span) [] false (keyedAll_struct h),
    c31_struct inner ha ht hg allowed (.named span) [] false (keyedAll_struct h')]
  have : ∀ i f, inner.fields[i]? = some f → ∀ v,
      Holds inner allowed [] ((Mode.named span).toFullSpan l) l (ks.map (Keyed.item inner.fields)) f i v ↔
      Holds inner allowed [] ((Mode.named span).toFullSpan l') l' (ks.map (Keyed.item inner.fields)) f i v := by
    intro i f hf v
    exact ends_congr htg htg (fun _ => rfl) rfl (hn i f hf) fun _ => Iff.rfl
  constructor
  · rintro ⟨a, b, c⟩
    refine ⟨a, b, fun i f hf => ?_⟩
    obtain ⟨v, h1, h2⟩ := c i f hf
    exact ⟨v, h1, (this i f hf v).1 h2⟩
  · rintro ⟨a, b, c⟩
    refine ⟨a, b, fun i f hf => ?_⟩
    obtain ⟨v, h1, h2⟩ := c i f hf
    exact ⟨v, h1, (this i f hf v).2 h2⟩

theorem inline_main {d inner : Fields V} {A B : List (Field V)} {f : Field V} (hi : Inlines d inner A B f)
    (allowed allowed' : List Str) (hal : ∀ x ∈ inner.fields, x.Plain → ∀ k ∈ x.idents, k ∈ allowed) (mode : Mode)
    (validate : Bool) (g : List V → V) {l : List Stream} {ks : List (Keyed V)}
    (h : ItemsAll (KeyedSeg (d.inlined inner A B).fields) l ks)
    (hcall : ∀ l', l' = l ∨ l' = forkInputs l → ∀ v, (f.flatCall [] (mode.toFullSpan l) allowed l').1 = .ok v ↔
      ∃ ws, v = g ws ∧ (namedFlat inner allowed' (.named (mode.toFullSpan l)) [] false l').1 = .ok ws)
    (hfork : ∀ x ∈ A ++ (inner.fields ++ B), x.flatParsable = true → ∀ v,
      (x.flatCall [] (mode.toFullSpan l) allowed (forkInputs l)).1 = .ok v ↔
        (x.flatCall [] (mode.toFullSpan l) allowed l).1 = .ok v) (vs : List V) :
    (namedFlat d allowed mode [] validate l).1 = .ok vs ↔ ∃ a ws b, vs = a ++ g ws :: b ∧ a.length = A.length ∧
      ws.length = inner.fields.length ∧
      (namedFlat (d.inlined inner A B) allowed mode [] validate l).1 = .ok (a ++ (ws ++ b)) := by
  have hnp : ¬ f.Plain := by
    intro hp
    have := hi.flat
    rw [flatParsable_iff, hp.1] at this
    cases this.1
  have hfp : f.isParsable = true := ((flatParsable_iff f).1 hi.flat).2
  have hout : ItemsAll (KeyedSeg d.fields) l (ks.map (Keyed.mapPos (outPos A.length inner.fields.length))) := by
    rw [hi.fields]
    exact h.map fun _ _ _ _ hb => hb.out hi.apart hnp
  have hinn : ItemsAll (KeyedSeg inner.fields) l (ks.map (Keyed.mapPos (inPos A.length inner.fields.length))) :=
    h.map fun _ _ _ _ hb => hb.inn hi.apart
  have hacc : Accepted (d.inlined inner A B) := by
    refine ⟨fun x hx hp => ?_, fun t htt => ?_⟩
    · have hx' : x ∈ d.fields ∨ x ∈ inner.fields := by
        rw [hi.fields]
        simp only [Fields.inlined, List.mem_append, List.mem_cons] at hx ⊢
        rcases hx with h | h | h
        · exact .inl (.inl h)
        · exact .inr h
        · exact .inl (.inr (.inr h))
      rcases hx' with hx' | hx'
      · exact hi.accepted.filled x hx' hp
      · rcases hi.accepted'.filled x hx' hp with h | h | ⟨h, ho⟩
        · exact .inl h
        · rw [hi.target'] at h; cases h
        · exact .inr (.inr ⟨h, by rw [hi.obj x hx' h] at ho; exact ho⟩)
    · have : d.target = some t := htt
      rw [hi.target] at this
      cases this
  have hgood : FieldsGood (d.inlined inner A B).fields := by
    have hx : ∀ x ∈ (d.inlined inner A B).fields, x ∈ d.fields ∨ x ∈ inner.fields := by
      intro x hx
      rw [hi.fields]
      simp only [Fields.inlined, List.mem_append, List.mem_cons] at hx ⊢
      rcases hx with h | h | h
      · exact .inl (.inl h)
      · exact .inr h
      · exact .inl (.inr (.inr h))
    refine ⟨fun x hm => ?_, fun x hm => ?_, fun x hm => ?_⟩ <;> rcases hx x hm with hm | hm
    · exact hi.good.named x hm
    · exact hi.good'.named x hm
    · exact hi.good.missing x hm
    · exact hi.good'.missing x hm
    · exact hi.good.flat x hm
    · exact hi.good'.flat x hm
  have hkey : ∀ k ∈ ks, ∀ i x, k.2.2 = some (i, x) → A.length ≤ i → i < A.length + inner.fields.length →
      k.1 ∈ allowed := by
    intro k hk
    refine itemsAll_mem (P := fun k : Keyed V => ∀ i x, k.2.2 = some (i, x) → A.length ≤ i →
      i < A.length + inner.fields.length → k.1 ∈ allowed) h hk ?_
    intro v rest sc b hb
    cases hb with
    | @field segs sp vt y j x h1 h2 h3 h4 =>
      rintro i x he hle hlt
      cases he
      obtain ⟨t, rfl⟩ := Nat.exists_eq_add_of_le hle
      obtain ⟨kk, hk1, hk2, hk3, hk4, _⟩ := (owns_I hi.apart (by omega)).1 h3
      rw [hk1, List.nil_append]
      exact hal y (List.mem_of_getElem? hk2) hk3 kk hk4
    | other h1 h2 h3 => intro i x he; cases he
  have hX : ∀ chk, ItemsOk chk allowed (ks.map (Keyed.item (d.inlined inner A B).fields)) ↔
      ItemsOk chk allowed ((ks.map (Keyed.mapPos (outPos A.length inner.fields.length))).map (Keyed.item d.fields)) ∧
      ItemsOk false allowed' ((ks.map (Keyed.mapPos (inPos A.length inner.fields.length))).map
        (Keyed.item inner.fields)) := by
    intro chk
    rw [keyed_itemsOk, keyed_itemsOk, keyed_itemsOk, owners_mapPos, owners_mapPos,
      nodup_split A.length inner.fields.length (Keyed.owners ks)]
    constructor
    · rintro ⟨⟨h1, h2⟩, h3, h4⟩
      refine ⟨⟨h1, ?_, ?_⟩, h2, ?_, by simp⟩
      · intro k hk i x he
        obtain ⟨k', hk', rfl⟩ := List.mem_map.1 hk
        simp only [Keyed.mapPos, Option.bind_eq_some_iff, Option.map_eq_some_iff, Prod.mk.injEq] at he
        obtain ⟨⟨j, y⟩, hj, _, _, _, rfl⟩ := he
        exact h3 k' hk' j y hj
      · intro k hk he hc
        obtain ⟨k', hk', rfl⟩ := List.mem_map.1 hk
        show k'.1 ∈ allowed
        cases ho : k'.2.2 with
        | none => exact h4 k' hk' ho hc
        | some y =>
          obtain ⟨j, y⟩ := y
          simp only [Keyed.mapPos, ho, Option.bind_some, Option.map_eq_none_iff] at he
          have hr : A.length ≤ j ∧ j < A.length + inner.fields.length := by
            unfold outPos at he
            split at he
            · cases he
            · split at he
              · omega
              · cases he
          exact hkey k' hk' j y ho hr.1 hr.2
      · intro k hk i x he
        obtain ⟨k', hk', rfl⟩ := List.mem_map.1 hk
        simp only [Keyed.mapPos, Option.bind_eq_some_iff, Option.map_eq_some_iff, Prod.mk.injEq] at he
        obtain ⟨⟨j, y⟩, hj, _, _, _, rfl⟩ := he
        exact h3 k' hk' j y hj
    · rintro ⟨⟨h1, h2, h3⟩, h4, h5, -⟩
      refine ⟨⟨h1, h4⟩, ?_, ?_⟩
      · intro k hk i x he
        cases hp : outPos A.length inner.fields.length i with
        | some j =>
          exact h2 _ (List.mem_map_of_mem hk) j x (by simp [Keyed.mapPos, he, hp])
        | none =>
          have hq : inPos A.length inner.fields.length i = some (i - A.length) := by
            unfold outPos at hp
            unfold inPos
            split at hp
            · cases hp
            · split at hp
              · rename_i a b; simp [a, b]
              · cases hp
          exact h5 _ (List.mem_map_of_mem hk) (i - A.length) x (by simp [Keyed.mapPos, he, hq])
      · intro k hk he hc
        exact h3 (k.mapPos (outPos A.length inner.fields.length)) (List.mem_map_of_mem hk)
          (by simp [Keyed.mapPos, he]) hc
  have hflat : ∀ x ∈ A ++ (inner.fields ++ B), x.flatParsable = true → ∀ (F G : List (Field V)) i j v,
      flatOut F [] (mode.toFullSpan l) allowed l x i = .ok v ↔ flatOut G [] (mode.toFullSpan l) allowed l x j = .ok v := by
    intro x hx hxf F G i j v
    have := hfork x hx hxf v
    simp only [flatOut]
    split <;> split <;> first | exact Iff.rfl | exact this | exact this.symm
  have hcallA : ∀ x ∈ inner.fields, x.flatParsable = true → ∀ al al', x.flatCall [] (mode.toFullSpan l) al =
      x.flatCall [] (mode.toFullSpan l) al' := by
    intro x hx hxf al al'
    simp only [Field.flatCall, hi.noRest x hx hxf]
    rfl
  have hA : ∀ i x, i < A.length → A[i]? = some x → ∀ v,
      Holds d allowed [] (mode.toFullSpan l) l
        ((ks.map (Keyed.mapPos (outPos A.length inner.fields.length))).map (Keyed.item d.fields)) x i v ↔
      Holds (d.inlined inner A B) allowed [] (mode.toFullSpan l) l
        (ks.map (Keyed.item (d.inlined inner A B).fields)) x i v := by
    intro i x hlt hx v
    refine ends_congr hi.target hi.target (fun _ => rfl) ?_
      (fun hxf w => hflat x (List.mem_append_left _ (List.mem_of_getElem? hx)) hxf _ _ _ _ w) fun _ => Iff.rfl
    rw [keyed_given, keyed_given]
    exact given_mapPos (outPos_lt hlt) ks
  have hB : ∀ t x, B[t]? = some x → ∀ v,
      Holds d allowed [] (mode.toFullSpan l) l
        ((ks.map (Keyed.mapPos (outPos A.length inner.fields.length))).map (Keyed.item d.fields)) x (A.length + 1 + t) v ↔
      Holds (d.inlined inner A B) allowed [] (mode.toFullSpan l) l
        (ks.map (Keyed.item (d.inlined inner A B).fields)) x (A.length + inner.fields.length + t) v := by
    intro t x hx v
    refine ends_congr hi.target hi.target (fun _ => rfl) ?_
      (fun hxf w => hflat x (List.mem_append_right _ (List.mem_append_right _ (List.mem_of_getElem? hx))) hxf _ _ _ _ w) fun _ => Iff.rfl
    rw [keyed_given, keyed_given]
    exact given_mapPos outPos_ge ks
  have hI : ∀ t x, inner.fields[t]? = some x → ∀ v,
      Holds inner allowed' [] ((Mode.named (mode.toFullSpan l)).toFullSpan l) l
        ((ks.map (Keyed.mapPos (inPos A.length inner.fields.length))).map (Keyed.item inner.fields)) x t v ↔
      Holds (d.inlined inner A B) allowed [] (mode.toFullSpan l) l
        (ks.map (Keyed.item (d.inlined inner A B).fields)) x (A.length + t) v := by
    intro t x hx v
    have hm := List.mem_of_getElem? hx
    refine ends_congr hi.target' hi.target (fun hc => hi.obj x hm hc) ?_ (fun hxf w => ?_)
      fun w => hi.missing x hm _ w
    · rw [keyed_given, keyed_given]
      exact given_mapPos (inPos_eq (List.getElem?_eq_some_iff.1 hx).1) ks
    · rw [← hflat x (List.mem_append_right _ (List.mem_append_left _ hm)) hxf inner.fields _ t _ w]
      rw [show (Mode.named (mode.toFullSpan l)).toFullSpan l = mode.toFullSpan l from rfl]
      simp only [flatOut, hcallA x hm hxf allowed' allowed]
  have hF : ∀ v, Holds d allowed [] (mode.toFullSpan l) l
        ((ks.map (Keyed.mapPos (outPos A.length inner.fields.length))).map (Keyed.item d.fields)) f A.length v ↔
      ∃ ws, v = g ws ∧ (namedFlat inner allowed' (.named (mode.toFullSpan l)) [] false l).1 = .ok ws := by
    intro v
    have h1 : flatOut d.fields [] (mode.toFullSpan l) allowed l f A.length = .ok v ↔
        ∃ ws, v = g ws ∧ (namedFlat inner allowed' (.named (mode.toFullSpan l)) [] false l).1 = .ok ws := by
      simp only [flatOut]
      split
      · rw [hcall _ (.inr rfl)]
        have hf := inlines_fork hi.accepted' hi.transparent' hi.target' hi.good' allowed' (mode.toFullSpan l)
          hinn (itemsAll_fork hinn) (fun i x hx hxf v => by
            have hm := List.mem_of_getElem? hx
            have := hfork x (List.mem_append_right _ (List.mem_append_left _ hm)) hxf v
            rw [hcallA x hm hxf allowed allowed'] at this
            simp only [flatOut, fork_fork]
            split
            · exact Iff.rfl
            · exact this.symm)
        exact ⟨fun ⟨ws, a, b⟩ => ⟨ws, a, (hf ws).2 b⟩, fun ⟨ws, a, b⟩ => ⟨ws, a, (hf ws).1 b⟩⟩
      · exact hcall _ (.inl rfl) v
    rw [← h1]
    constructor
    · rintro (⟨b, hs, ht⟩ | ⟨_, t, ht, _⟩)
      · rw [hi.transforms] at ht
        simp only [runTransforms, Except.ok.injEq] at ht
        subst ht
        cases hs with
        | item h _ => exact absurd h hnp
        | flat _ h => exact h
        | container h _ => rw [hi.plain] at h; cases h
        | default h _ =>
          rcases h with ⟨h, _⟩ | ⟨h, _⟩
          · exact absurd h hnp
          · rw [hfp] at h; cases h
        | missing h => exact absurd h hnp
      · rw [hi.target] at ht; cases ht
    · intro h
      exact .inl ⟨v, .flat hi.flat h, by rw [hi.transforms]; rfl⟩
  rw [c31_struct d hi.accepted hi.transparent hi.good allowed mode [] validate (keyedAll_struct hout)]
  simp only [c31_struct (d.inlined inner A B) hacc hi.transparent hgood allowed mode [] validate (keyedAll_struct h)]
  have hinner := c31_struct inner hi.accepted' hi.transparent' hi.good' allowed' (.named (mode.toFullSpan l)) [] false
    (keyedAll_struct hinn)
  simp only [Bool.and_false] at hinner
  have hdf : ∀ i : Nat, d.fields[i]? = (A ++ f :: B)[i]? := fun i => by rw [hi.fields]
  have hlen : d.fields.length = A.length + 1 + B.length := by
    rw [hi.fields]; simp only [List.length_append, List.length_cons]; omega
  constructor
  · rintro ⟨h1, h2, h3⟩
    obtain ⟨v, hv, hh⟩ := h3 A.length f (by rw [hdf, get_f])
    obtain ⟨ws, rfl, hws⟩ := (hF v).1 hh
    obtain ⟨k1, k2, k3⟩ := (hinner ws).1 hws
    have hvs : vs = vs.take A.length ++ g ws :: vs.drop (A.length + 1) := by
      have hlt := (List.getElem?_eq_some_iff.1 hv)
      obtain ⟨hlt, he⟩ := hlt
      rw [← he, List.getElem_cons_drop, List.take_append_drop]
    have hta : (vs.take A.length).length = A.length := by rw [List.length_take]; omega
    refine ⟨_, ws, _, hvs, hta, k2, (hX _).2 ⟨h1, k1⟩, ?_, ?_⟩
    · simp only [List.length_append, List.length_drop, Fields.inlined, hta, k2]; omega
    · intro i x hx
      replace hx : (A ++ (inner.fields ++ B))[i]? = some x := hx
      by_cases hiA : i < A.length
      · rw [List.getElem?_append_left hiA] at hx
        obtain ⟨w, hw, hhw⟩ := h3 i x (by rw [hdf, List.getElem?_append_left hiA, hx])
        refine ⟨w, ?_, (hA i x hiA hx w).1 hhw⟩
        rw [List.getElem?_append_left (by omega), List.getElem?_take_of_lt hiA, hw]
      · obtain ⟨t, rfl⟩ := Nat.exists_eq_add_of_le (Nat.le_of_not_lt hiA)
        by_cases ht : t < inner.fields.length
        · rw [get_I ht] at hx
          obtain ⟨w, hw, hhw⟩ := k3 t x hx
          refine ⟨w, ?_, (hI t x hx w).1 hhw⟩
          rw [List.getElem?_append_right (by omega), hta, Nat.add_sub_cancel_left,
            List.getElem?_append_left (by omega), hw]
        · obtain ⟨q, rfl⟩ := Nat.exists_eq_add_of_le (Nat.le_of_not_lt ht)
          rw [← Nat.add_assoc, get_B] at hx
          obtain ⟨w, hw, hhw⟩ := h3 (A.length + 1 + q) x (by rw [hdf, get_B', hx])
          refine ⟨w, ?_, by rw [← Nat.add_assoc]; exact (hB q x hx w).1 hhw⟩
          rw [List.getElem?_append_right (by omega), hta, Nat.add_sub_cancel_left,
            List.getElem?_append_right (by omega), k2, Nat.add_sub_cancel_left, List.getElem?_drop, hw]
  · rintro ⟨a, ws, b, rfl, ha, hw, h1, h2, h3⟩
    obtain ⟨x1, x2⟩ := (hX _).1 h1
    have hbl : b.length = B.length := by
      simp only [List.length_append, Fields.inlined] at h2; omega
    refine ⟨x1, ?_, ?_⟩
    · rw [hlen]; simp only [List.length_append, List.length_cons]; omega
    · intro i x hx
      rw [hdf] at hx
      by_cases hiA : i < A.length
      · rw [List.getElem?_append_left hiA] at hx
        obtain ⟨w, hww, hhw⟩ := h3 i x (by
          show (A ++ (inner.fields ++ B))[i]? = _; rw [List.getElem?_append_left hiA, hx])
        refine ⟨w, ?_, (hA i x hiA hx w).2 hhw⟩
        rw [List.getElem?_append_left (by omega)] at hww ⊢
        exact hww
      · by_cases hin : i = A.length
        · subst hin
          rw [get_f] at hx
          cases hx
          refine ⟨g ws, by rw [← ha, List.getElem?_append_right (Nat.le_refl _), Nat.sub_self]; rfl,
            (hF _).2 ⟨ws, rfl, (hinner ws).2 ⟨x2, hw, fun t y hy => ?_⟩⟩⟩
          have ht := (List.getElem?_eq_some_iff.1 hy).1
          obtain ⟨w, hww, hhw⟩ := h3 (A.length + t) y (by
            show (A ++ (inner.fields ++ B))[A.length + t]? = _; rw [get_I ht, hy])
          refine ⟨w, ?_, (hI t y hy w).2 hhw⟩
          rw [List.getElem?_append_right (by omega), ha, Nat.add_sub_cancel_left,
            List.getElem?_append_left (by omega)] at hww
          exact hww
        · obtain ⟨q, rfl⟩ := Nat.exists_eq_add_of_le (show A.length + 1 ≤ i by omega)
          rw [get_B'] at hx
          obtain ⟨w, hww, hhw⟩ := h3 (A.length + inner.fields.length + q) x (by
            show (A ++ (inner.fields ++ B))[_]? = _; rw [get_B, hx])
          refine ⟨w, ?_, (hB q x hx w).2 hhw⟩
          rw [List.getElem?_append_right (by omega), List.getElem?_append_right (by omega)] at hww
          rw [List.getElem?_append_right (by omega), ha, show A.length + 1 + q - A.length = q + 1 by omega]
          show b[q]? = _
          rw [← hww]
          congr 1
          omega


/-- What a flattened field takes from the structure it flattens: its parser and its names. -/
structure FlattensData (f : Field V) (inner : Fields V) (g : List V → V) : Prop where
  parse : FlattensStruct f inner (Field.fieldNames inner.fields) g
  names : f.flatNamed.fieldNames = Field.fieldNames inner.fields

omit [Env] in
theorem fieldNames_plain {fields : List (Field V)} {x : Field V} (hx : x ∈ fields) (hp : x.Plain) {k : Str}
    (hk : k ∈ x.idents) : k ∈ Field.fieldNames fields := by
  refine List.mem_flatMap.2 ⟨x, List.mem_filter.2 ⟨hx, hp.2⟩, ?_⟩
  have hf := hp.1
  unfold Field.isFlat Field.isFlatten at hf
  unfold Field.names
  split
  · rename_i h; rw [h] at hf; simp at hf
  · rename_i h; rw [h] at hf; simp at hf
  · exact hk

omit [Env] in
theorem fieldNames_inlined {d inner : Fields V} {A B : List (Field V)} {f : Field V} (hd : d.fields = A ++ f :: B)
    (hp : f.isParsable = true) (hn : f.names = Field.fieldNames inner.fields) :
    Field.fieldNames (d.inlined inner A B).fields = Field.fieldNames d.fields := by
  rw [hd]
  simp only [Fields.inlined, Field.fieldNames, List.filter_append, List.flatMap_append, List.filter_cons, hp, if_true,
    List.flatMap_cons, hn]

/-- C82: a structure with a flattened field is parsed as the structure in which the fields of the flattened one stand
in place of that field: on every input whose items are keys with values the one succeeds exactly if the other does,
with the same values. -/
theorem c82_inline {d inner : Fields V} {A B : List (Field V)} {f : Field V} (hi : Inlines d inner A B f)
    (hfl : f.Flattens none) {g : List V → V} (hin : FlattensData f inner g) (mode : Mode) (validate : Bool)
    {l : List Stream} {ks : List (Keyed V)} (h : ItemsAll (KeyedSeg (d.inlined inner A B).fields) l ks)
    (hfork : ∀ x ∈ A ++ (inner.fields ++ B), x.flatParsable = true → ∀ v,
      (x.flatCall [] (mode.toFullSpan l) (Field.fieldNames d.fields) (forkInputs l)).1 = .ok v ↔
        (x.flatCall [] (mode.toFullSpan l) (Field.fieldNames d.fields) l).1 = .ok v) (vs : List V) :
    (namedFlat d (Field.fieldNames d.fields) mode [] validate l).1 = .ok vs ↔
      ∃ a ws b, vs = a ++ g ws :: b ∧ a.length = A.length ∧ ws.length = inner.fields.length ∧
        (namedFlat (d.inlined inner A B) (Field.fieldNames (d.inlined inner A B).fields) mode [] validate l).1 =
          .ok (a ++ (ws ++ b)) := by
  have hn : f.names = Field.fieldNames inner.fields := by simp [Field.names, hfl.flatten, hin.names]
  rw [fieldNames_inlined hi.fields hfl.parsable hn]
  refine inline_main hi _ (Field.fieldNames inner.fields) ?_ mode validate g h (fun l' _ v => ?_) hfork vs
  · intro x hx hp k hk
    rw [hi.fields]
    refine List.mem_flatMap.2 ⟨f, List.mem_filter.2 ⟨by simp, hfl.parsable⟩, ?_⟩
    rw [hn]
    exact fieldNames_plain hx hp hk
  · have : (f.flatCall [] (mode.toFullSpan l) (Field.fieldNames d.fields) l').1 =
        ((namedFlat inner (Field.fieldNames inner.fields) (.named (mode.toFullSpan l)) [] false l').1).map g := by
      simp [Field.flatCall, hfl.append, hfl.rest, hfl.flatten, hin.parse _ _ _, M.mapRes]
    rw [this]
    cases (namedFlat inner (Field.fieldNames inner.fields) (.named (mode.toFullSpan l)) [] false l').1 with
    | ok ws => simp [Res.map, eq_comm]
    | err e => simp [Res.map]
    | panic => simp [Res.map]

/-! ## With a prefix -/

/-- The field with the prefix before all its names. Its type is told its name without the prefix, as in
macros/types/field.rs:875-890. -/
def Field.under (pre : Str) (x : Field V) : Field V :=
  { x with
    ident := some (pre ++ x.ident.getD [])
    idents := x.idents.map (pre ++ ·)
    item := { x.item with named := fun _ sp => x.item.named (x.idents.headD []) sp } }

/-- The structure with the prefix before the names of all its fields. -/
def Fields.under (pre : Str) (d : Fields V) : Fields V := { d with fields := d.fields.map (Field.under pre) }

omit [Env] in
theorem owns_under {pre key : Str} {F : List (Field V)} {y : Field V} {i : Nat} :
    Owns (F.map (Field.under pre)) [] key y i ↔ ∃ x, y = x.under pre ∧ Owns F pre key x i := by
  constructor
  · rintro ⟨k, hk, hi, hp, hm, hj⟩
    rw [List.getElem?_map, Option.map_eq_some_iff] at hi
    obtain ⟨x, hx, rfl⟩ := hi
    obtain ⟨k', hk', rfl⟩ := List.mem_map.1 hm
    refine ⟨x, rfl, k', by simpa using hk, hx, hp, hk', fun j g hlt hg hgp hmem => ?_⟩
    exact hj j (g.under pre) hlt (by rw [List.getElem?_map, hg]; rfl) hgp (List.mem_map.2 ⟨k', hmem, rfl⟩)
  · rintro ⟨x, rfl, k, hk, hi, hp, hm, hj⟩
    refine ⟨pre ++ k, by simpa using hk, by rw [List.getElem?_map, hi]; rfl, hp, List.mem_map.2 ⟨k, hm, rfl⟩,
      fun j g hlt hg hgp hmem => ?_⟩
    rw [List.getElem?_map, Option.map_eq_some_iff] at hg
    obtain ⟨g', hg', rfl⟩ := hg
    obtain ⟨k', hk', he⟩ := List.mem_map.1 hmem
    obtain rfl : k' = k := List.append_cancel_left he
    exact hj j g' hlt hg' hgp hk'

theorem KeyedSeg.under {pre : Str} {F : List (Field V)} {v rest : List Tok} {sc : Span} {k : Keyed V}
    (h : KeyedSeg (F.map (Field.under pre)) v rest sc k) : StructSeg F pre v rest sc (k.item F) := by
  cases h with
  | @field segs sp vt y i x h1 h2 h3 h4 =>
    obtain ⟨y', rfl, ho⟩ := owns_under.1 h3
    have hi : F[i]? = some y' := by obtain ⟨_, _, h, _⟩ := ho; exact h
    simp only [Keyed.item, hi, Option.map_some, Option.getD_some]
    exact .field h1 ho h4
  | other h1 h2 h3 => exact .other h1 (fun x i ho => h3 _ i (owns_under.2 ⟨x, rfl, ho⟩)) h2

omit [Env] in
theorem source_under {pre : Str} {d : Fields V} {f : Field V} {g : Option (Except SynErr V)} {fl ms : Res V}
    {o : Option V} : Source d f g fl ms o ↔ Source (d.under pre) (f.under pre) g fl ms o := by
  constructor <;> intro h
  · cases h with
    | item h1 h2 => exact .item h1 h2
    | flat h1 h2 => exact .flat h1 h2
    | container h1 h2 => exact .container h1 h2
    | default h1 h2 => exact .default h1 h2
    | missing h1 h2 h3 h4 h5 => exact .missing h1 h2 h3 h4 h5
    | target h1 h2 h3 => exact .target h1 h2 h3
  · cases h with
    | item h1 h2 => exact .item h1 h2
    | flat h1 h2 => exact .flat h1 h2
    | container h1 h2 => exact .container h1 h2
    | default h1 h2 => exact .default h1 h2
    | missing h1 h2 h3 h4 h5 => exact .missing h1 h2 h3 h4 h5
    | target h1 h2 h3 => exact .target h1 h2 h3

omit [Env] in
theorem missingName_under {pre : Str} (hne : pre ≠ []) (hp : endsColon2 pre = true) (d : Fields V) (x : Field V) :
    missingName (d.under pre) [] (x.under pre) = missingName d pre x := by
  have h : joinPath pre (x.ident.getD []) = pre ++ x.ident.getD [] := by
    unfold joinPath
    rw [if_neg (by simpa using hne), if_pos hp]
  unfold missingName
  rw [h]
  rfl

omit [Env] in
theorem accepted_under {pre : Str} {d : Fields V} (h : Accepted d) : Accepted (d.under pre) := by
  refine ⟨fun x hx hp => ?_, fun t ht => ?_⟩
  · obtain ⟨y, hy, rfl⟩ := List.mem_map.1 hx
    exact h.filled y hy hp
  · simpa [Fields.under] using h.target t ht

omit [Env] in
theorem joinPath_colon {pre : Str} (hne : pre ≠ []) (hp : endsColon2 pre = true) (k : Str) :
    joinPath pre k = pre ++ k := by
  unfold joinPath
  rw [if_neg (by simpa using hne), if_pos hp]

/-- The field has no flattened value and does not take the rest. -/
def Field.OwnKeys (x : Field V) : Prop := x.isFlatten = false ∧ x.rest.getD false = false

omit [Env] in
theorem flatCall_under {pre : Str} (hne : pre ≠ []) (hp : endsColon2 pre = true) {x : Field V} (hx : x.OwnKeys)
    (hf : x.flatParsable = true) (pre' : Str) (span : Span) (allowed allowed' : List Str) :
    (x.under pre).flatCall pre' span allowed = x.flatCall (joinPath pre' pre) span allowed' := by
  have ha : x.append.getD false = true := by
    simpa [Field.isFlat, hx.1, hx.2] using ((flatParsable_iff x).1 hf).1
  have hj : joinPaths pre' (x.idents.map (pre ++ ·)) = joinPaths (joinPath pre' pre) x.idents := by
    simp only [joinPaths, List.map_map]
    refine List.map_congr_left fun k _ => ?_
    have hjn : joinPath pre' pre ≠ [] := by
      unfold joinPath
      split
      · exact hne
      · split <;> simp [hne]
    have hje : endsColon2 (joinPath pre' pre) = true := by
      obtain ⟨t, rfl⟩ := (endsColon2_iff pre).1 hp
      rw [endsColon2_iff]
      unfold joinPath
      split
      · exact ⟨t, rfl⟩
      · split
        · exact ⟨pre' ++ t, by simp⟩
        · exact ⟨pre' ++ [':', ':'] ++ t, by simp⟩
    rw [joinPath_colon hjn hje, Function.comp_apply]
    unfold joinPath
    split
    · rfl
    · split <;> simp
  simp only [Field.flatCall, Field.under, ha, if_true, hj]

omit [Env] in
theorem good_under {pre : Str} (hne : pre ≠ []) (hp : endsColon2 pre = true) {F : List (Field V)} (h : FieldsGood F)
    (hn : ∀ x ∈ F, x.OwnKeys) : FieldsGood (F.map (Field.under pre)) := by
  refine ⟨fun x hx hp n sp => ?_, fun x hx n sp => ?_, fun x hx hf pre' sp allowed => ?_⟩ <;>
    obtain ⟨y, hy, rfl⟩ := List.mem_map.1 hx
  · exact h.named y hy hp _ sp
  · exact h.missing y hy n sp
  · rw [flatCall_under hne hp (hn y hy) hf pre' sp allowed allowed]
    exact h.flat y hy hf _ sp allowed

omit [Env] in
theorem flatOut_under {pre : Str} (hne : pre ≠ []) (hp : endsColon2 pre = true) {F : List (Field V)} {x : Field V}
    (hx : x.OwnKeys) (hf : x.flatParsable = true) (span : Span) (allowed allowed' : List Str) (l : List Stream)
    (i : Nat) : flatOut (F.map (Field.under pre)) [] span allowed l (x.under pre) i =
      flatOut F pre span allowed' l x i := by
  have hany : ((F.map (Field.under pre)).drop (i + 1)).any (·.flatParsable) =
      (F.drop (i + 1)).any (·.flatParsable) := by
    rw [← List.map_drop, List.any_map]
    rfl
  simp only [flatOut, hany, flatCall_under hne hp hx hf [] span allowed allowed']
  rfl

/-- A structure parsed with a prefix is parsed as the structure whose names have the prefix. -/
theorem under_main {pre : Str} (hne : pre ≠ []) (hpre : endsColon2 pre = true) {inner : Fields V} (ha : Accepted inner)
    (ht : inner.transparent = false) (hg : FieldsGood inner.fields) (hn : ∀ x ∈ inner.fields, x.OwnKeys)
    (allowed allowed' : List Str) (span : Span) {l : List Stream} {ks : List (Keyed V)}
    (h : ItemsAll (KeyedSeg (inner.under pre).fields) l ks) (ws : List V) :
    (namedFlat inner allowed (.named span) pre false l).1 = .ok ws ↔
      (namedFlat (inner.under pre) allowed' (.named span) [] false l).1 = .ok ws := by
  have h1 : ItemsAll (StructSeg inner.fields pre) l (ks.map (Keyed.item inner.fields)) :=
    h.map fun _ _ _ _ hb => hb.under
  rw [c31_struct inner ha ht hg allowed (.named span) pre false h1,
    c31_struct (inner.under pre) (accepted_under ha) ht (good_under hne hpre hg hn) allowed' (.named span) [] false
      (keyedAll_struct h)]
  simp only [keyed_itemsOk, keyed_given, Holds, Ends, Fields.under, List.length_map, Bool.and_false]
  have key : ∀ (i : Nat) x, inner.fields[i]? = some x → ∀ (gv : Option (Except SynErr V)) o,
      Source inner x gv (flatOut inner.fields pre ((Mode.named span).toFullSpan l) allowed l x i)
        (x.item.missing (missingName inner pre x) ((Mode.named span).toFullSpan l)) o ↔
      Source (inner.under pre) (x.under pre) gv
        (flatOut (inner.under pre).fields [] ((Mode.named span).toFullSpan l) allowed' l (x.under pre) i)
        ((x.under pre).item.missing
        (missingName (inner.under pre) [] (x.under pre)) ((Mode.named span).toFullSpan l)) o := by
    intro i x hx gv o
    rw [missingName_under hne hpre]
    by_cases hf : x.flatParsable = true
    · rw [show (inner.under pre).fields = inner.fields.map (Field.under pre) from rfl,
        flatOut_under hne hpre (hn x (List.mem_of_getElem? hx)) hf _ allowed' allowed]
      exact source_under
    · refine Iff.trans ⟨fun h => ?_, fun h => ?_⟩ (source_under (pre := pre) (d := inner) (f := x))
      · cases h with
        | item h1 h2 => exact .item h1 h2
        | flat h1 h2 => exact absurd h1 hf
        | container h1 h2 => exact .container h1 h2
        | default h1 h2 => exact .default h1 h2
        | missing h1 h2 h3 h4 h5 => exact .missing h1 h2 h3 h4 h5
        | target h1 h2 h3 => exact .target h1 h2 h3
      · cases h with
        | item h1 h2 => exact .item h1 h2
        | flat h1 h2 => exact absurd h1 hf
        | container h1 h2 => exact .container h1 h2
        | default h1 h2 => exact .default h1 h2
        | missing h1 h2 h3 h4 h5 => exact .missing h1 h2 h3 h4 h5
        | target h1 h2 h3 => exact .target h1 h2 h3
  constructor
  · rintro ⟨⟨a1, a2, -⟩, b, c⟩
    refine ⟨⟨a1, a2, by simp⟩, b, fun i y hy => ?_⟩
    rw [List.getElem?_map, Option.map_eq_some_iff] at hy
    obtain ⟨x, hx, rfl⟩ := hy
    obtain ⟨v, hv, hh⟩ := c i x hx
    refine ⟨v, hv, ?_⟩
    rcases hh with ⟨b, h1, h2⟩ | ⟨h1, h2⟩
    · exact .inl ⟨b, (key i x hx _ _).1 h1, h2⟩
    · exact .inr ⟨(key i x hx _ _).1 h1, h2⟩
  · rintro ⟨⟨a1, a2, -⟩, b, c⟩
    refine ⟨⟨a1, a2, by simp⟩, b, fun i x hx => ?_⟩
    obtain ⟨v, hv, hh⟩ := c i (x.under pre) (by rw [List.getElem?_map, hx]; rfl)
    refine ⟨v, hv, ?_⟩
    rcases hh with ⟨b, h1, h2⟩ | ⟨h1, h2⟩
    · exact .inl ⟨b, (key i x hx _ _).2 h1, h2⟩
    · exact .inr ⟨(key i x hx _ _).2 h1, h2⟩

omit [Env] in
theorem fieldNames_under {p : Str} {inner : Fields V} (hn : ∀ x ∈ inner.fields, x.isFlatten = false) (hp : p ≠ [])
    (he : endsColon2 p = false) :
    joinPaths p (Field.fieldNames inner.fields) =
      Field.fieldNames (inner.under (p ++ [':', ':'])).fields := by
  have hnames : ∀ x : Field V, x.isFlatten = false → x.names = x.idents := by
    intro x hx
    unfold Field.isFlatten at hx
    unfold Field.names
    split
    · rename_i h; rw [h] at hx; simp at hx
    · rename_i h; rw [h] at hx; simp at hx
    · rfl
  have hjoin : ∀ k, joinPath p k = (p ++ [':', ':']) ++ k := by
    intro k
    unfold joinPath
    rw [if_neg (by simpa using hp), if_neg (by simp [he])]
  simp only [Fields.under, Field.fieldNames, joinPaths]
  generalize inner.fields = F at hn
  induction F with
  | nil => rfl
  | cons x F ih =>
    have hx : (x.under (p ++ [':', ':'])).isParsable = x.isParsable := rfl
    have ih := ih fun y hy => hn y (List.mem_cons_of_mem _ hy)
    simp only [List.map_cons, List.filter_cons, hx]
    split
    · rw [List.flatMap_cons, List.flatMap_cons, List.map_append, ih, hnames x (hn x List.mem_cons_self),
        hnames (x.under _) (hn x List.mem_cons_self)]
      congr 1
      exact List.map_congr_left fun k _ => hjoin k
    · exact ih

/-- C82: `flatten(prefix = p)` reads like the fields of the inner structure with `p::` before their names. -/
theorem c82_prefix {d inner : Fields V} {A B : List (Field V)} {f : Field V} {p : Str} (hp : p ≠ [])
    (hpe : endsColon2 p = false) (hi : Inlines d (inner.under (p ++ "::".toList)) A B f) (ha : Accepted inner)
    (hg : FieldsGood inner.fields) (hnf : ∀ x ∈ inner.fields, x.OwnKeys) (hfl : f.Flattens (some p))
    {g : List V → V} (hin : FlattensData f inner g)
    (mode : Mode) (validate : Bool) {l : List Stream} {ks : List (Keyed V)}
    (h : ItemsAll (KeyedSeg (d.inlined (inner.under (p ++ "::".toList)) A B).fields) l ks)
    (hfork : ∀ x ∈ A ++ ((inner.under (p ++ "::".toList)).fields ++ B), x.flatParsable = true → ∀ v,
      (x.flatCall [] (mode.toFullSpan l) (Field.fieldNames d.fields) (forkInputs l)).1 = .ok v ↔
        (x.flatCall [] (mode.toFullSpan l) (Field.fieldNames d.fields) l).1 = .ok v) (vs : List V) :
    (namedFlat d (Field.fieldNames d.fields) mode [] validate l).1 = .ok vs ↔
      ∃ a ws b, vs = a ++ g ws :: b ∧ a.length = A.length ∧ ws.length = inner.fields.length ∧
        (namedFlat (d.inlined (inner.under (p ++ "::".toList)) A B)
          (Field.fieldNames (d.inlined (inner.under (p ++ "::".toList)) A B).fields) mode [] validate l).1 =
          .ok (a ++ (ws ++ b)) := by
  have hn : f.names = Field.fieldNames (inner.under (p ++ "::".toList)).fields := by
    simp only [Field.names, hfl.flatten, hin.names]
    exact fieldNames_under (fun x hx => (hnf x hx).1) hp hpe
  rw [fieldNames_inlined hi.fields hfl.parsable hn]
  have hlen : inner.fields.length = (inner.under (p ++ "::".toList)).fields.length := by simp [Fields.under]
  have hnp : ¬ f.Plain := by
    intro hx
    have := hi.flat
    rw [flatParsable_iff, hx.1] at this
    cases this.1
  have hinn : ItemsAll (KeyedSeg (inner.under (p ++ "::".toList)).fields) l
      (ks.map (Keyed.mapPos (inPos A.length (inner.under (p ++ "::".toList)).fields.length))) :=
    h.map fun _ _ _ _ hb => hb.inn hi.apart
  rw [hlen]
  refine inline_main hi _ (Field.fieldNames (inner.under (p ++ "::".toList)).fields) ?_ mode validate g h
    (fun l' hl' v => ?_) hfork vs
  · intro x hx hpl k hk
    rw [hi.fields]
    refine List.mem_flatMap.2 ⟨f, List.mem_filter.2 ⟨by simp, hfl.parsable⟩, ?_⟩
    rw [hn]
    exact fieldNames_plain hx hpl hk
  · have hcall : (f.flatCall [] (mode.toFullSpan l) (Field.fieldNames d.fields) l').1 =
        ((namedFlat inner (Field.fieldNames inner.fields) (.named (mode.toFullSpan l)) (p ++ "::".toList) false l').1).map
          g := by
      simp [Field.flatCall, hfl.append, hfl.rest, hfl.flatten, hin.parse _ _ _, M.mapRes, joinPrefix]
    have hitems : ItemsAll (KeyedSeg (inner.under (p ++ "::".toList)).fields) l'
        (ks.map (Keyed.mapPos (inPos A.length (inner.under (p ++ "::".toList)).fields.length))) := by
      rcases hl' with rfl | rfl
      · exact hinn
      · exact itemsAll_fork hinn
    have hu := under_main (pre := p ++ "::".toList) (by simp) (endsColon2_append p) ha hi.transparent' hg hnf
      (Field.fieldNames inner.fields) (Field.fieldNames (inner.under (p ++ "::".toList)).fields) (mode.toFullSpan l)
      hitems
    rw [hcall]
    simp only [← hu]
    cases (namedFlat inner (Field.fieldNames inner.fields) (.named (mode.toFullSpan l)) (p ++ "::".toList) false l').1 with
    | ok ws => simp [Res.map, eq_comm]
    | err e => simp [Res.map]
    | panic => simp [Res.map]

/-! ## A case -/

/-- The fields of `struct Inner { b: bool }`, a value being the list of the booleans in it. -/
def inlineInner : Fields (List Bool) :=
  ⟨[plainField "b".toList (boolDict.map ([·]))], none, false, false, none, none, 0⟩

/-- `#[deluxe(flatten)] inner: Inner`, with this prefix if any -/
def inlineField (p : Option Str) : Field (List Bool) :=
  { plainField "inner".toList (boolDict.map ([·])) with
    idents := []
    flatten := some ⟨true, p⟩
    flatNamed := ⟨false, Field.fieldNames inlineInner.fields, fun mode pre validate =>
      (namedFlat inlineInner (Field.fieldNames inlineInner.fields) mode pre validate).mapRes (Res.map List.flatten)⟩ }

/-- The fields of `struct Outer { a: bool, #[deluxe(flatten)] inner: Inner, c: bool }`. -/
def inlineOuter (p : Option Str) : Fields (List Bool) :=
  ⟨[plainField "a".toList (boolDict.map ([·])), inlineField p, plainField "c".toList (boolDict.map ([·]))],
    none, false, false, none, none, 0⟩

omit [Env] in
theorem plainBool_good {fs : List (Field (List Bool))}
    (h : ∀ f ∈ fs, ∃ n, f = plainField n (boolDict.map ([·]))) : FieldsGood fs := by
  have hb := Dict.map_good (fun b : Bool => [b]) boolDict_good
  refine ⟨fun f hf _ n sp => ?_, fun f hf n sp => ?_, fun f hf hp => ?_⟩ <;> obtain ⟨_, rfl⟩ := h f hf
  · exact hb.named n sp
  · exact hb.missing n sp
  · simp [plainField, Field.flatParsable, Field.isFlat, Field.isFlatten] at hp

omit [Env] in
theorem inlineInner_accepted : Accepted inlineInner := by
  refine ⟨fun f hf hp => ?_, by simp [inlineInner]⟩
  simp only [inlineInner, List.mem_singleton] at hf
  subst hf
  simp [plainField, Field.isParsable, Field.isContainer] at hp

omit [Env] in
theorem inlineInner_good : FieldsGood inlineInner.fields :=
  plainBool_good fun f hf => ⟨"b".toList, by simpa [inlineInner] using hf⟩

omit [Env] in
theorem inlineInner_own : ∀ x ∈ inlineInner.fields, x.OwnKeys := by
  intro x hx
  simp only [inlineInner, List.mem_singleton] at hx
  subst hx
  exact ⟨rfl, rfl⟩

theorem inline_flattens (p : Option Str) :
    (inlineField p).Flattens p ∧ FlattensData (inlineField p) inlineInner List.flatten :=
  ⟨⟨rfl, rfl, rfl, rfl⟩, fun _ _ _ => rfl, rfl⟩

theorem inlineOuter_accepted (p : Option Str) : Accepted (inlineOuter p) := by
  refine ⟨fun f hf hp => ?_, by simp [inlineOuter]⟩
  simp only [inlineOuter, List.mem_cons, List.not_mem_nil, or_false] at hf
  rcases hf with rfl | rfl | rfl <;> simp [inlineField, plainField, Field.isParsable, Field.isContainer] at hp

theorem inlineOuter_good (p : Option Str) : FieldsGood (inlineOuter p).fields := by
  have hb := Dict.map_good (fun b : Bool => [b]) boolDict_good
  refine ⟨fun f hf _ n sp => ?_, fun f hf n sp => ?_, fun f hf hp pre sp allowed => ?_⟩ <;>
    simp only [inlineOuter, List.mem_cons, List.not_mem_nil, or_false] at hf
  · rcases hf with rfl | rfl | rfl <;> exact hb.named n sp
  · rcases hf with rfl | rfl | rfl <;> exact hb.missing n sp
  · rcases hf with rfl | rfl | rfl
    · cases hp
    · exact mapRes_good (namedFlat_good _ inlineInner_accepted rfl inlineInner_good _ _ _ _)
        (fun r hr => by cases r <;> simp_all [Res.map])
    · cases hp

/-- The two definitions meet the hypotheses. -/
theorem inline_demo : Inlines (inlineOuter none) inlineInner [plainField "a".toList (boolDict.map ([·]))]
    [plainField "c".toList (boolDict.map ([·]))] (inlineField none) where
  fields := rfl
  flat := rfl
  plain := rfl
  transforms := rfl
  target := rfl
  target' := rfl
  accepted := inlineOuter_accepted _
  accepted' := inlineInner_accepted
  transparent := rfl
  transparent' := rfl
  good := inlineOuter_good _
  good' := inlineInner_good
  noRest := fun x hx _ => (inlineInner_own x hx).2
  apart := by
    intro x hx _ y hy _ k hk
    simp only [inlineInner, List.cons_append, List.nil_append, List.mem_cons, List.not_mem_nil,
      or_false] at hx hy
    subst hx
    rcases hy with rfl | rfl <;> simp_all [plainField]
  obj := fun _ _ _ => rfl
  missing := fun _ _ _ _ => Iff.rfl

/-- The same with `flatten(prefix = p)`. -/
theorem inline_demo_prefix : Inlines (inlineOuter (some "p".toList)) (inlineInner.under ("p".toList ++ "::".toList))
    [plainField "a".toList (boolDict.map ([·]))] [plainField "c".toList (boolDict.map ([·]))]
    (inlineField (some "p".toList)) where
  fields := rfl
  flat := rfl
  plain := rfl
  transforms := rfl
  target := rfl
  target' := rfl
  accepted := inlineOuter_accepted _
  accepted' := accepted_under inlineInner_accepted
  transparent := rfl
  transparent' := rfl
  good := inlineOuter_good _
  good' := good_under (by simp) rfl inlineInner_good inlineInner_own
  noRest := by
    intro x hx _
    obtain ⟨y, hy, rfl⟩ := List.mem_map.1 hx
    exact (inlineInner_own y hy).2
  apart := by
    intro x hx _ y hy _ k hk
    simp only [Fields.under, inlineInner, List.map_cons, List.map_nil, List.cons_append,
      List.nil_append, List.mem_cons, List.not_mem_nil, or_false] at hx hy
    subst hx
    rcases hy with rfl | rfl <;> simp_all [plainField, Field.under]
  obj := fun _ _ _ => rfl
  missing := fun _ _ _ _ => Iff.rfl

omit [Env] in
theorem owns_of_arm {fields : List (Field V)} {key : Str} {i : Nat} {f : Field V}
    (h : (stripPrefix [] key).bind (findArm fields) = some (f, i)) : Owns fields [] key f i :=
  (owner_some _ _ _ _ _).1 h

/-- The items of `a, b = true, c = false`. -/
theorem inline_items : ItemsAll (KeyedSeg ((inlineOuter none).inlined inlineInner
      [plainField "a".toList (boolDict.map ([·]))] [plainField "c".toList (boolDict.map ([·]))]).fields)
    [⟨[.ident "a".toList 1, .punct ',' false 2, .ident "b".toList 3, .punct '=' false 4, .ident "true".toList 5,
      .punct ',' false 6, .ident "c".toList 7, .punct '=' false 8, .ident "false".toList 9], 10, none⟩]
    [("a".toList, 1, some (0, .ok [true])), ("b".toList, 3, some (1, .ok [true])),
      ("c".toList, 7, some (2, .ok [false]))] := by
  refine .cons (bs := [_, _, _]) (.cons (v := [.ident "a".toList 1]) ⟨_, _, rfl⟩ ?_
    (.cons (v := [.ident "b".toList 3, .punct '=' false 4, .ident "true".toList 5]) ⟨_, _, rfl⟩ ?_
      (.last (by simp) ?_))) .nil
  · exact .field (segs := ["a".toList]) (vt := []) (.mk (pt := [.ident "a".toList 1]) (.plain (.one _ _))
      (by simp [StartsColon2])) (by simp [NoComma]) (owns_of_arm rfl) (fun u => ⟨u, rfl⟩)
  · exact .field (segs := ["b".toList]) (vt := [.punct '=' false 4, .ident "true".toList 5])
      (.mk (pt := [.ident "b".toList 3]) (.plain (.one _ _)) (by simp [StartsColon2]))
      (by simp [NoComma, Comma]) (owns_of_arm rfl) (fun u => ⟨u, rfl⟩)
  · exact .field (segs := ["c".toList]) (vt := [.punct '=' false 8, .ident "false".toList 9])
      (.mk (pt := [.ident "c".toList 7]) (.plain (.one _ _)) (by simp [StartsColon2]))
      (by simp [NoComma, Comma]) (owns_of_arm rfl) (fun u => ⟨u, rfl⟩)

theorem inline_result : (namedFlat ((inlineOuter none).inlined inlineInner
      [plainField "a".toList (boolDict.map ([·]))] [plainField "c".toList (boolDict.map ([·]))])
      ["a".toList, "b".toList, "c".toList] (.named 0) [] true
    [⟨[.ident "a".toList 1, .punct ',' false 2, .ident "b".toList 3, .punct '=' false 4, .ident "true".toList 5,
      .punct ',' false 6, .ident "c".toList 7, .punct '=' false 8, .ident "false".toList 9], 10, none⟩]).1 =
    .ok [[true], [true], [false]] := by rfl

/-- C82 applies to them, and the structure is parsed. -/
example : (namedFlat (inlineOuter none) (Field.fieldNames (inlineOuter none).fields) (.named 0) [] true
    [⟨[.ident "a".toList 1, .punct ',' false 2, .ident "b".toList 3, .punct '=' false 4, .ident "true".toList 5,
      .punct ',' false 6, .ident "c".toList 7, .punct '=' false 8, .ident "false".toList 9], 10, none⟩]).1 =
    .ok [[true], [true], [false]] :=
  (c82_inline inline_demo (inline_flattens none).1 (inline_flattens none).2 (.named 0) true inline_items
    (fun x hx h => by
      simp only [inlineInner, List.cons_append, List.nil_append,
        List.mem_cons, List.not_mem_nil, or_false] at hx
      rcases hx with rfl | rfl | rfl <;> cases h) _).2
    ⟨[[true]], [[true]], [[false]], rfl, rfl, rfl, inline_result⟩

/-- The items of `a, p::b = true, c = false`. -/
theorem inline_items_prefix : ItemsAll (KeyedSeg ((inlineOuter (some "p".toList)).inlined
      (inlineInner.under ("p".toList ++ "::".toList))
      [plainField "a".toList (boolDict.map ([·]))] [plainField "c".toList (boolDict.map ([·]))]).fields)
    [⟨[.ident "a".toList 1, .punct ',' false 2, .ident "p".toList 3, .punct ':' true 3, .punct ':' false 3,
      .ident "b".toList 3, .punct '=' false 4, .ident "true".toList 5,
      .punct ',' false 6, .ident "c".toList 7, .punct '=' false 8, .ident "false".toList 9], 10, none⟩]
    [("a".toList, 1, some (0, .ok [true])), ("p::b".toList,
      pathSpan [.ident "p".toList 3, .punct ':' true 3, .punct ':' false 3, .ident "b".toList 3], some (1, .ok [true])),
      ("c".toList, 7, some (2, .ok [false]))] := by
  refine .cons (bs := [_, _, _]) (.cons (v := [.ident "a".toList 1]) ⟨_, _, rfl⟩ ?_
    (.cons (v := [.ident "p".toList 3, .punct ':' true 3, .punct ':' false 3, .ident "b".toList 3, .punct '=' false 4,
      .ident "true".toList 5]) ⟨_, _, rfl⟩ ?_ (.last (by simp) ?_))) .nil
  · exact .field (segs := ["a".toList]) (vt := []) (.mk (pt := [.ident "a".toList 1]) (.plain (.one _ _))
      (by simp [StartsColon2])) (by simp [NoComma]) (owns_of_arm rfl) (fun u => ⟨u, rfl⟩)
  · exact .field (segs := ["p".toList, "b".toList]) (vt := [.punct '=' false 4, .ident "true".toList 5])
      (.mk (pt := [.ident "p".toList 3, .punct ':' true 3, .punct ':' false 3, .ident "b".toList 3])
        (.plain (.cons _ _ _ _ _ (.one _ _))) (by simp [StartsColon2]))
      (by simp [NoComma, Comma]) (owns_of_arm rfl) (fun u => ⟨u, rfl⟩)
  · exact .field (segs := ["c".toList]) (vt := [.punct '=' false 8, .ident "false".toList 9])
      (.mk (pt := [.ident "c".toList 7]) (.plain (.one _ _)) (by simp [StartsColon2]))
      (by simp [NoComma, Comma]) (owns_of_arm rfl) (fun u => ⟨u, rfl⟩)

theorem inline_result_prefix : (namedFlat ((inlineOuter (some "p".toList)).inlined
      (inlineInner.under ("p".toList ++ "::".toList))
      [plainField "a".toList (boolDict.map ([·]))] [plainField "c".toList (boolDict.map ([·]))])
      ["a".toList, "p::b".toList, "c".toList] (.named 0) [] true
    [⟨[.ident "a".toList 1, .punct ',' false 2, .ident "p".toList 3, .punct ':' true 3, .punct ':' false 3,
      .ident "b".toList 3, .punct '=' false 4, .ident "true".toList 5,
      .punct ',' false 6, .ident "c".toList 7, .punct '=' false 8, .ident "false".toList 9], 10, none⟩]).1 =
    .ok [[true], [true], [false]] := by rfl

/-- C82 with a prefix applies to them. -/
example : (namedFlat (inlineOuter (some "p".toList)) (Field.fieldNames (inlineOuter (some "p".toList)).fields) (.named 0)
    [] true
    [⟨[.ident "a".toList 1, .punct ',' false 2, .ident "p".toList 3, .punct ':' true 3, .punct ':' false 3,
      .ident "b".toList 3, .punct '=' false 4, .ident "true".toList 5,
      .punct ',' false 6, .ident "c".toList 7, .punct '=' false 8, .ident "false".toList 9], 10, none⟩]).1 =
    .ok [[true], [true], [false]] :=
  (c82_prefix (by simp) rfl inline_demo_prefix inlineInner_accepted inlineInner_good
    inlineInner_own
    (inline_flattens _).1 (inline_flattens _).2 (.named 0) true inline_items_prefix
    (fun x hx h => by
      simp only [Fields.under, inlineInner, List.map_cons, List.map_nil, List.cons_append, List.nil_append,
        List.mem_cons, List.not_mem_nil, or_false] at hx
      rcases hx with rfl | rfl | rfl <;> cases h) _).2
    ⟨[[true]], [[true]], [[false]], rfl, rfl, rfl, inline_result_prefix⟩

/-- C82 needs that no key is shared: if the outer structure has a field `b` of its own, the definition is accepted,
`b = true` is given to both fields, while the structure with the field `b` twice misses the second one. -/
theorem c82_shared_violated :
    (namedFlat { inlineOuter none with fields := [plainField "b".toList (boolDict.map ([·])), inlineField none] }
      ["b".toList, "b".toList] (.named 0) [] true
      [⟨[.ident "b".toList 1, .punct '=' false 2, .ident "true".toList 3], 4, none⟩]).1 = .ok [[true], [true]] ∧
    (namedFlat ((inlineOuter none).inlined inlineInner [plainField "b".toList (boolDict.map ([·]))] [])
      ["b".toList, "b".toList] (.named 0) [] true
      [⟨[.ident "b".toList 1, .punct '=' false 2, .ident "true".toList 3], 4, none⟩]).1 =
      .err (missingFieldError "`b`".toList 0) :=
  ⟨rfl, rfl⟩

end
end Deluxe
