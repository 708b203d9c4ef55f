import Verif.Spec.Grow
import Verif.Lemmas.Tidy
/-!
# Extended definitions read what was read before
-/
namespace Deluxe

/-- Other items, that are read in the same way. -/
theorem Reads.congr_ok {β : Type} {item item' : M Stream β} {s rs fatal s'} (h : Reads item s rs fatal s') :
    fatal = none → (∀ s b s1, item s = (.ok b, s1) → b ∈ rs.map (·.1) → item' s = (.ok b, s1)) →
      Reads item' s rs fatal s' := by
  induction h with
  | done h => exact fun _ _ => .done h
  | last h1 h2 h3 => exact fun _ hi => .last h1 (hi _ _ _ h2 (by simp)) h3
  | more h1 h2 h3 h4 _ ih =>
    exact fun hf hi => .more h1 (hi _ _ _ h2 (by simp)) h3 h4
      (ih hf fun s b s1 hs hb => hi s b s1 hs (List.mem_cons_of_mem _ hb))
  | failItem h1 h2 => exact fun hf => (nomatch hf)
  | failSep h1 h2 h3 h4 => exact fun hf => (nomatch hf)

theorem ReadsAll.congr_ok {β : Type} {item item' : M Stream β} {l rs fatal l'} (h : ReadsAll item l rs fatal l') :
    fatal = none → (∀ s b s1, item s = (.ok b, s1) → b ∈ rs.map (·.1) → item' s = (.ok b, s1)) →
      ReadsAll item' l rs fatal l' := by
  induction h with
  | nil => exact fun _ _ => .nil
  | cons h1 _ ih =>
    refine fun hf hi => .cons (h1.congr_ok rfl fun s b s1 hs hb => hi s b s1 hs ?_) (ih hf fun s b s1 hs hb => hi s b s1 hs ?_)
    · rw [List.map_append]; exact List.mem_append_left _ hb
    · rw [List.map_append]; exact List.mem_append_right _ hb
  | fail h1 => exact fun hf => (nomatch hf)

variable {V : Type}

theorem list_exists {n : Nat} {P : Nat → V → Prop} (h : ∀ i, i < n → ∃ v, P i v) :
    ∃ ws : List V, ws.length = n ∧ ∀ i, i < n → ∃ v, ws[i]? = some v ∧ P i v := by
  induction n generalizing P with
  | zero => exact ⟨[], rfl, fun i hi => absurd hi (Nat.not_lt_zero i)⟩
  | succ n ih =>
    obtain ⟨v, hv⟩ := h 0 (Nat.succ_pos n)
    obtain ⟨ws, h1, h2⟩ := ih (P := fun i => P (i + 1)) fun i hi => h (i + 1) (Nat.succ_lt_succ hi)
    refine ⟨v :: ws, by simp [h1], fun i hi => ?_⟩
    cases i with
    | zero => exact ⟨v, rfl, hv⟩
    | succ i => simpa using h2 i (Nat.lt_of_succ_lt_succ hi)

/-- A field with the name owns the key, or an earlier one does. -/
theorem owns_exists {fields : List (Field V)} (pre : Str) {k : Str} {f : Field V} {i : Nat} (hf : fields[i]? = some f)
    (hp : f.Plain) (hk : k ∈ f.idents) : ∃ g j, Owns fields pre (pre ++ k) g j := by
  induction i using Nat.strongRecOn generalizing f with
  | _ i ih =>
    by_cases h : ∃ j g, j < i ∧ fields[j]? = some g ∧ g.Plain ∧ k ∈ g.idents
    · obtain ⟨j, g, h1, h2, h3, h4⟩ := h
      exact ih j h1 h2 h3 h4
    · exact ⟨f, i, k, rfl, hf, hp, hk, fun j g h1 h2 h3 h4 => h ⟨j, g, h1, h2, h3, h4⟩⟩

namespace Field.Grown
variable {t : Bool} {f f' : Field V} (h : f.Grown t f')
include h

theorem isFlat : f'.isFlat = f.isFlat := by rw [h.same]; rfl
theorem isParsable : f'.isParsable = f.isParsable := by rw [h.same]; rfl
theorem isContainer : f'.isContainer = f.isContainer := by rw [h.same]; rfl
theorem flatParsable : f'.flatParsable = f.flatParsable := by rw [h.same]; rfl
theorem item : f'.item = f.item := by rw [h.same]
theorem transforms : f'.transforms = f.transforms := by rw [h.same]
theorem ident : f'.ident = f.ident := by rw [h.same]
theorem plain : f'.Plain ↔ f.Plain := by unfold Field.Plain; rw [h.isFlat, h.isParsable]
theorem flatCall (hf : f.flatParsable = true) : f'.flatCall = f.flatCall := by
  have : f'.idents = f.idents := h.flat (by
    simp only [Field.flatParsable, Bool.and_eq_true] at hf
    exact hf.1)
  rw [h.same, this]
  rfl
end Field.Grown

section
variable {d d' : Fields V}

theorem Fields.Grows.at (h : d.Grows d') {i : Nat} {f' : Field V} (hf : d'.fields[i]? = some f')
    (hi : i < d.fields.length) : ∃ f, d.fields[i]? = some f ∧ f.Grown d.target.isSome f' := by
  obtain ⟨g, h1, h2⟩ := h.kept i _ (List.getElem?_eq_getElem hi)
  rw [hf] at h1
  cases h1
  exact ⟨_, List.getElem?_eq_getElem hi, h2⟩

theorem Fields.Grows.anyFlat (h : d.Grows d') (n : Nat) :
    (d'.fields.drop n).any (·.flatParsable) = (d.fields.drop n).any (·.flatParsable) := by
  rw [Bool.eq_iff_iff, List.any_eq_true, List.any_eq_true]
  constructor
  · rintro ⟨f', hm, hp⟩
    obtain ⟨i, hi⟩ := List.getElem?_of_mem hm
    rw [List.getElem?_drop] at hi
    by_cases hlt : n + i < d.fields.length
    · obtain ⟨f, h1, h2⟩ := h.at hi hlt
      refine ⟨f, List.mem_of_getElem? (i := i) ?_, h2.flatParsable ▸ hp⟩
      rw [List.getElem?_drop]
      exact h1
    · have := (h.added _ _ (Nat.le_of_not_lt hlt) hi).1
      simp [Field.flatParsable, this] at hp
  · rintro ⟨f, hm, hp⟩
    obtain ⟨i, hi⟩ := List.getElem?_of_mem hm
    rw [List.getElem?_drop] at hi
    obtain ⟨f', h1, h2⟩ := h.kept _ _ hi
    refine ⟨f', List.mem_of_getElem? (i := i) ?_, h2.flatParsable.trans hp⟩
    rw [List.getElem?_drop]
    exact h1

theorem Fields.Grows.any (h : d.Grows d') : d'.fields.any (·.flatParsable) = d.fields.any (·.flatParsable) := by
  have := h.anyFlat 0
  simpa using this

/-- The same field owns the key. -/
theorem Fields.Grows.owns (h : d.Grows d') {pre key : Str} (hk : ∀ k, NewName d.fields d'.fields k → key ≠ pre ++ k)
    {f : Field V} {i : Nat} (ho : Owns d.fields pre key f i) :
    ∃ f', f.Grown d.target.isSome f' ∧ Owns d'.fields pre key f' i := by
  obtain ⟨k, h1, h2, h3, h4, h5⟩ := ho
  obtain ⟨f', h6, h7⟩ := h.kept i f h2
  refine ⟨f', h7, k, h1, h6, h7.plain.2 h3, h7.names k h4, fun j g' hj hg hp hm => ?_⟩
  have hi := (List.getElem?_eq_some_iff.1 h2).1
  obtain ⟨g, h8, h9⟩ := h.at hg (Nat.lt_trans hj hi)
  refine hk k ⟨j, g', hg, hp, hm, fun x hx => ?_⟩ h1
  rw [h8] at hx
  cases hx
  exact h5 j g hj h8 (h9.plain.1 hp)

/-- No field owns the key. -/
theorem Fields.Grows.unowned (h : d.Grows d') {pre key : Str} (hk : ∀ k, NewName d.fields d'.fields k → key ≠ pre ++ k)
    (ho : ∀ f i, ¬ Owns d.fields pre key f i) (f' : Field V) (i : Nat) : ¬ Owns d'.fields pre key f' i := by
  rintro ⟨k, rfl, h2, h3, h4, -⟩
  apply hk k _ rfl
  refine ⟨i, f', h2, h3, h4, fun f hf hm => ?_⟩
  obtain ⟨g, h5, h6⟩ := h.kept i f hf
  rw [h2] at h5
  cases h5
  obtain ⟨g, j, hg⟩ := owns_exists pre hf (h6.plain.1 h3) hm
  exact ho g j hg

theorem Fields.Grows.value (h : d.Grows d') {pre key : Str} (hk : ∀ k, NewName d.fields d'.fields k → key ≠ pre ++ k)
    (sp : Span) : structValue d'.fields pre key sp = structValue d.fields pre key sp := by
  unfold structValue
  cases hx : (stripPrefix pre key).bind (findArm d.fields) with
  | none =>
    rw [owner_none] at hx
    rw [(owner_none _ _ _).2 (h.unowned hk hx)]
  | some x =>
    obtain ⟨f, i⟩ := x
    obtain ⟨f', h1, h2⟩ := h.owns hk ((owner_some _ _ _ _ _).1 hx)
    rw [(owner_some _ _ _ _ _).2 h2]
    simp only [h1.item, h1.first]

variable [Env]

theorem Fields.Grows.item (h : d.Grows d')
    (hfresh : ∀ k, NewName d.fields d'.fields k → ∀ g ∈ d.fields, g.Plain → k ∉ g.idents) {pre : Str} {s s1 : Stream}
    {b : SItem V} (hs : structItem d.fields pre s = (.ok b, s1))
    (hb : ∀ key sp, b = .other key sp → ∀ k, NewName d.fields d'.fields k → key ≠ pre ++ k) :
    structItem d'.fields pre s = (.ok b, s1) := by
  simp only [structItem, keyed] at hs ⊢
  cases hp : parseAnyPath s with
  | mk r s2 =>
    rw [hp] at hs
    cases r with
    | err e => cases hs
    | panic => cases hs
    | ok p =>
      dsimp only at hs ⊢
      rw [h.value]
      · exact hs
      · intro k hk he
        cases hx : (stripPrefix pre (keyString p.segs)).bind (findArm d.fields) with
        | none =>
          simp only [structValue, hx] at hs
          cases hs
          exact hb _ _ rfl k hk he
        | some x =>
          obtain ⟨k', h1, h2, h3, h4, -⟩ := (owner_some _ _ _ x.1 x.2).1 hx
          rw [he] at h1
          obtain rfl := List.append_cancel_left h1
          exact hfresh k hk _ (List.mem_of_getElem? h2) h3 h4

omit [Env] in
theorem Source.grown (h : d.Grows d') {f f' : Field V} (hf : f.Grown d.target.isSome f') {g : Option (Except SynErr V)}
    {fl ms : Res V} (hms : ∃ n sp, ms = f.item.missing n sp) {b : Option V} (hs : Source d f g fl ms b) :
    Source d' f' g fl ms b := by
  have hn : NotGiven d f g → NotGiven d' f' g := by
    intro hn
    unfold NotGiven at hn ⊢
    rw [hf.plain, hf.isParsable, hf.isContainer, h.obj]
    exact hn
  cases hs with
  | item a b => exact .item (hf.plain.2 a) b
  | flat a b => exact .flat (hf.flatParsable.trans a) b
  | container a b => exact .container (hf.isContainer.trans a) (h.obj.trans b)
  | default a b =>
    rcases hf.default with hd | ⟨-, hd, -⟩
    · exact .default (hn a) (hd.trans b)
    · rw [hd] at b; cases b
  | missing a b c e k =>
    rcases hf.default with hd | ⟨-, -, -, hd⟩
    · rcases h.target with ⟨-, ht⟩ | ⟨t, u, ht, -⟩
      · exact .missing (hf.plain.2 a) b (hd.trans c) ht k
      · rw [ht] at e; cases e
    · obtain ⟨n, sp, rfl⟩ := hms
      exact absurd k (hd n sp _)
  | target a b c =>
    rcases hf.default with hd | ⟨-, -, hd, -⟩
    · rcases h.target with ⟨ht, -⟩ | ⟨t, u, -, ht⟩
      · rw [ht] at c; cases c
      · exact .target (hn a) (hd.trans b) ht
    · rw [c] at hd; cases hd

omit [Env] in
theorem Ends.grown (h : d.Grows d') {f f' : Field V} (hf : f.Grown d.target.isSome f') {g : Option (Except SynErr V)}
    {fl ms : Res V} (hms : ∃ n sp, ms = f.item.missing n sp) {i : Nat} (ha : Accepted d) (hi : i < d.fields.length) {v : V}
    (hs : Ends d f g fl ms i v) : Ends d' f' g fl ms i v := by
  rcases hs with ⟨b, h1, h2⟩ | ⟨h1, t, h2, h3⟩
  · exact .inl ⟨b, h1.grown h hf hms, hf.transforms ▸ h2⟩
  · refine .inr ⟨h1.grown h hf hms, ?_⟩
    rcases h.target with ⟨ht, -⟩ | ⟨t', u, ht, ht'⟩
    · rw [ht] at h2; cases h2
    · rw [ht] at h2
      cases h2
      refine ⟨_, ht', ?_⟩
      rw [List.getElem?_append_left]
      · exact h3
      · rw [ha.target _ ht]
        exact hi

omit [Env] in
theorem Ends.any_flat {f : Field V} (hf : f.isFlat = false) {g : Option (Except SynErr V)} {fl fl' ms : Res V} {i : Nat}
    {v : V} (hs : Ends d f g fl ms i v) : Ends d f g fl' ms i v := by
  have key : ∀ {b}, Source d f g fl ms b → Source d f g fl' ms b := by
    intro b hb
    cases hb with
    | item a b => exact .item a b
    | flat a b => simp [Field.flatParsable, hf] at a
    | container a b => exact .container a b
    | default a b => exact .default a b
    | missing a b c e k => exact .missing a b c e k
    | target a b c => exact .target a b c
  rcases hs with ⟨b, h1, h2⟩ | ⟨h1, h2⟩
  · exact .inl ⟨b, key h1, h2⟩
  · exact .inr ⟨key h1, h2⟩

omit [Env] in
theorem given_absent {n i : Nat} {bs : List (SItem V)} (hb : InRange n bs) (hi : n ≤ i) : given i bs = none := by
  induction bs with
  | nil => rfl
  | cons b bs ih =>
    have ih := ih fun j m sp x hm => hb j m sp x (List.mem_cons_of_mem _ hm)
    cases b with
    | other k sp => exact ih
    | field j m sp x =>
      have := hb j m sp x List.mem_cons_self
      simp only [given]
      rw [if_neg (by omega), ih]

/-- The extended structure reads what the structure reads, if none of the keys is a new name. -/
theorem Fields.Grows.reads (h : d.Grows d') (ha : Accepted d) (ha' : Accepted d') (ht : d.transparent = false)
    (ht' : d'.transparent = false) (hg : FieldsGood d.fields) (hg' : FieldsGood d'.fields)
    (hfresh : ∀ k, NewName d.fields d'.fields k → ∀ g ∈ d.fields, g.Plain → k ∉ g.idents)
    {allowed allowed' : List Str} (hal : ∀ k ∈ allowed, k ∈ allowed') (mode : Mode) (pre : Str) {validate validate' : Bool}
    (hv : (!d'.allowUnknown && validate') = true → (!d.allowUnknown && validate) = true)
    (hfl : ∀ f ∈ d.fields, f.flatParsable = true → ∀ span, f.flatCall pre span allowed' = f.flatCall pre span allowed)
    {l rs fatal l1} (hr : ReadsAll (structItem d.fields pre)
      (if d.fields.any (·.flatParsable) then forkInputs l else l) rs fatal l1)
    (hkey : ItemsOk (!d.allowUnknown && validate) allowed (rs.map (·.1)) →
      ∀ key sp, .other key sp ∈ rs.map (·.1) → ∀ k, NewName d.fields d'.fields k → key ≠ pre ++ k)
    {vs : List V} (hok : (namedFlat d allowed mode pre validate l).1 = .ok vs) :
    ∃ ws, (namedFlat d' allowed' mode pre validate' l).1 = .ok ws ∧ vs <+: ws := by
  obtain ⟨h1, h2, h3, h4⟩ := (namedFlat_ok d ha ht hg allowed mode pre validate hr vs).1 hok
  have hkey := hkey h2
  have hr' : ReadsAll (structItem d'.fields pre)
      (if d'.fields.any (·.flatParsable) then forkInputs l else l) rs fatal l1 := by
    rw [h.any]
    refine hr.congr_ok h1 fun s b s1 hs hb => h.item hfresh hs fun key sp he => ?_
    subst he
    exact hkey key sp hb
  have hir := hr.inRange
  generalize hbs : rs.map (·.1) = bs at h2 h4 hkey hir
  have hlen : d.fields.length ≤ d'.fields.length := by
    apply Nat.le_of_not_lt
    intro hlt
    obtain ⟨f', h5, -⟩ := h.kept _ _ (List.getElem?_eq_getElem hlt)
    rw [List.getElem?_eq_none (Nat.le_refl _)] at h5
    cases h5
  have hall : ∀ i : Nat, i < d'.fields.length → ∃ v, ∀ f', d'.fields[i]? = some f' →
      (i < d.fields.length → vs[i]? = some v) ∧
        Holds d' allowed' pre (mode.toFullSpan l) l bs f' i v := by
    intro i hlt
    by_cases hi : i < d.fields.length
    · obtain ⟨f, hf⟩ : ∃ f, d.fields[i]? = some f := ⟨_, List.getElem?_eq_getElem hi⟩
      obtain ⟨v, hv1, hv2⟩ := h4 i f hf
      refine ⟨v, fun f' hf' => ⟨fun _ => hv1, ?_⟩⟩
      obtain ⟨g, h5, h6⟩ := h.kept i f hf
      rw [hf'] at h5
      cases h5
      have h7 := hv2.grown h h6 ⟨_, _, rfl⟩ ha hi
      have hm : f'.item.missing (missingName d' pre f') (mode.toFullSpan l) =
          f.item.missing (missingName d pre f) (mode.toFullSpan l) := by
        simp only [missingName, h6.item, h6.ident, h.attrName]
      unfold Holds
      rw [hm]
      by_cases hfp : f.flatParsable = true
      · have hflat : flatOut d'.fields pre (mode.toFullSpan l) allowed' l f' i =
            flatOut d.fields pre (mode.toFullSpan l) allowed l f i := by
          unfold flatOut
          rw [h.anyFlat, h6.flatCall hfp, hfl f (List.mem_of_getElem? hf) hfp]
        rw [hflat]
        exact h7
      · have key : ∀ {fl fl' ms b}, Source d' f' (given i bs) fl ms b → Source d' f' (given i bs) fl' ms b := by
          intro fl fl' ms b hb
          cases hb with
          | item a b => exact .item a b
          | flat a b => rw [h6.flatParsable] at a; exact absurd a hfp
          | container a b => exact .container a b
          | default a b => exact .default a b
          | missing a b c e k => exact .missing a b c e k
          | target a b c => exact .target a b c
        rcases h7 with ⟨b, h1, h2⟩ | ⟨h1, h2⟩
        · exact .inl ⟨b, key h1, h2⟩
        · exact .inr ⟨key h1, h2⟩
    · by_cases hi' : i < d'.fields.length
      · obtain ⟨f', hf'⟩ : ∃ f', d'.fields[i]? = some f' := ⟨_, List.getElem?_eq_getElem hi'⟩
        obtain ⟨h5, h6⟩ := h.added i f' (Nat.le_of_not_lt hi) hf'
        obtain ⟨v, hv⟩ := h6 (missingName d' pre f') (mode.toFullSpan l)
        refine ⟨v, fun g hg => ⟨fun hc => absurd hc hi, ?_⟩⟩
        rw [hf'] at hg
        cases hg
        unfold Holds
        rw [given_absent hir (Nat.le_of_not_lt hi)]
        exact hv.any_flat h5
      · exact absurd hlt hi'
  obtain ⟨ws, hw1, hw2⟩ := list_exists hall
  refine ⟨ws, ?_, ?_⟩
  · rw [namedFlat_ok d' ha' ht' hg' allowed' mode pre validate' hr' ws, hbs]
    refine ⟨h1, ⟨h2.once, h2.values, fun key sp hm hc => hal _ (h2.known key sp hm (hv hc))⟩, hw1, fun i f' hf' => ?_⟩
    obtain ⟨v, h5, h6⟩ := hw2 i (List.getElem?_eq_some_iff.1 hf').1
    exact ⟨v, h5, (h6 f' hf').2⟩
  · rw [List.prefix_iff_eq_take]
    apply List.ext_getElem?
    intro i
    rw [List.getElem?_take]
    split
    · rename_i hi
      rw [h3] at hi
      obtain ⟨v, h5, h6⟩ := hw2 i (Nat.lt_of_lt_of_le hi hlen)
      rw [h5, (h6 _ (List.getElem?_eq_getElem (Nat.lt_of_lt_of_le hi hlen))).1 hi]
    · rename_i hi
      exact List.getElem?_eq_none (Nat.le_of_not_lt hi)

end

/-! ## From the fields to the ways of reading a value -/

/-- If the first parser succeeds so does the second, with a related value, and both leave the same.  For the states with
the property `P`. -/
def M.ImpOn {σ α β : Type} (P : σ → Prop) (R : α → β → Prop) (m : M σ α) (m' : M σ β) : Prop :=
  ∀ s, P s → ∀ a, (m s).1 = .ok a → ∃ b, (m' s).1 = .ok b ∧ R a b ∧ (m s).2 = (m' s).2

/-- If the first outcome is a value so is the second, and they are related. -/
def Res.Imp {α β : Type} (R : α → β → Prop) (r : Res α) (r' : Res β) : Prop :=
  ∀ a, r = .ok a → ∃ b, r' = .ok b ∧ R a b

/-- Everything that is read as a value of the first kind is read as a value of the second kind. -/
structure Dict.ImpFresh {α β : Type} (R : α → β → Prop) (x : Dict α) (y : Dict β) : Prop where
  parse : ∀ m, (x.parse m).ImpOn (fun s => s.unexp = none) R (y.parse m)
  inline : ∀ m, (x.inline m).ImpOn Fresh R (y.inline m)
  flag : ∀ sp, Res.Imp R (x.flag sp) (y.flag sp)
  named : ∀ n sp, (x.named n sp).ImpOn (fun s => s.unexp = none) R (y.named n sp)
  missing : ∀ n sp, Res.Imp R (x.missing n sp) (y.missing n sp)

section
variable {α β : Type} {R : α → β → Prop}

theorem M.ImpOn.single {m : M (List Stream) α} {m' : M (List Stream) β} (h : m.ImpOn Fresh R m') :
    (single m).ImpOn (fun s => s.unexp = none) R (single m') := fun s hs a ha => by
  obtain ⟨b, h1, h2, h3⟩ := h [s] (.single hs) a ha
  exact ⟨b, h1, h2, by simp only [Deluxe.single, h3]⟩

theorem M.ImpOn.delimited {m : M Stream α} {m' : M Stream β} (h : m.ImpOn (fun s => s.unexp = none) R m') (d : Delim) :
    (parseDelimitedWith d m).ImpOn (fun s => s.unexp = none) R (parseDelimitedWith d m') := fun s hs a ha => by
  simp only [parseDelimitedWith, withContent] at ha ⊢
  cases he : enter d s with
  | error e => rw [he] at ha; cases ha
  | ok x =>
    obtain ⟨c, s'⟩ := x
    rw [he] at ha
    have := h c (enter_fresh he hs).1
    simp only [Bind.bind, M.bind] at ha ⊢
    generalize m c = x at this ha ⊢
    generalize m' c = y at this ⊢
    obtain ⟨x, lx⟩ := x
    obtain ⟨y, ly⟩ := y
    cases x with
    | err e => cases ha
    | panic => cases ha
    | ok x =>
      obtain ⟨b, h1, h2, h3⟩ := this x rfl
      dsimp only at h1 h3
      subst h1
      subst h3
      dsimp only at ha ⊢
      cases he : parseEof lx with
      | mk r l =>
        rw [he] at ha
        cases r with
        | err e => cases ha
        | panic => cases ha
        | ok u => cases ha; exact ⟨b, rfl, h2, rfl⟩

theorem M.ImpOn.parseEmpty {m : M Stream α} {m' : M Stream β} (h : m.ImpOn (fun s => s.unexp = none) R m') (sp : Span) :
    Res.Imp R (parseEmpty sp m) (parseEmpty sp m') := by
  intro a ha
  unfold Deluxe.parseEmpty Deluxe.parse2 at ha ⊢
  have := h ⟨[], callSite, none⟩ rfl
  generalize m ⟨[], callSite, none⟩ = x at this ha ⊢
  generalize m' ⟨[], callSite, none⟩ = y at this ⊢
  obtain ⟨x, lx⟩ := x
  obtain ⟨y, ly⟩ := y
  cases x with
  | err e => cases ha
  | panic => cases ha
  | ok x =>
    obtain ⟨b, h1, h2, h3⟩ := this x rfl
    dsimp only at h1 h3
    subst h1
    subst h3
    obtain ⟨t, sc, u⟩ := lx
    cases u with
    | some sp => cases ha
    | none =>
      cases t with
      | nil => cases ha; exact ⟨b, rfl, h2⟩
      | cons t ts => cases ha

theorem M.ImpOn.namedItem {parse : Mode → M Stream α} {parse' : Mode → M Stream β} {inline : Mode → M (List Stream) α}
    {inline' : Mode → M (List Stream) β} {flag : Span → Res α} {flag' : Span → Res β}
    (hp : ∀ m, (parse m).ImpOn (fun s => s.unexp = none) R (parse' m)) (hi : ∀ m, (inline m).ImpOn Fresh R (inline' m))
    (hf : ∀ sp, Res.Imp R (flag sp) (flag' sp)) (sp : Span) :
    (parseNamedMetaItem parse inline flag sp).ImpOn (fun s => s.unexp = none) R (parseNamedMetaItem parse' inline' flag' sp) :=
  fun s hs => by
  unfold parseNamedMetaItem
  split
  · simp only [Bind.bind, M.bind]
    cases he : parsePunct '=' s with
    | mk r s' =>
      have hs' : s'.unexp = none := by
        unfold parsePunct at he
        split at he
        · split at he <;> cases he <;> exact hs
        · cases he; exact hs
      cases r with
      | ok u => exact hp _ _ hs'
      | err e => exact fun a ha => (nomatch ha)
      | panic => exact fun a ha => (nomatch ha)
  · split
    · exact (hi _).single.delimited .paren s hs
    · intro a ha
      obtain ⟨b, h1, h2⟩ := hf _ a ha
      exact ⟨b, h1, h2, rfl⟩

end

section
variable {α β : Type} {R : α → β → Prop}

theorem M.ImpOn.parseTokens {m : M Stream α} {m' : M Stream β} (h : m.ImpOn (fun s => s.unexp = none) R m')
    (toks : List Tok) : Res.Imp R (parseTokens toks m) (parseTokens toks m') := by
  intro a ha
  obtain ⟨b, h1, h2, h3⟩ := h ⟨toks, callSite, none⟩ rfl a (parseTokens_gives ha)
  refine ⟨b, ?_, h2⟩
  have h0 := parseTokens_gives ha
  unfold Deluxe.parseTokens Deluxe.parse2 at ha ⊢
  dsimp only at ha ⊢
  generalize m ⟨toks, callSite, none⟩ = x at ha h0 h3
  generalize m' ⟨toks, callSite, none⟩ = y at h1 h3
  obtain ⟨x, lx⟩ := x
  obtain ⟨y, ly⟩ := y
  dsimp only at h0 h1 h3
  subst h0
  subst h1
  subst h3
  dsimp only at ha ⊢
  cases he : parseEof lx with
  | mk r l =>
    obtain ⟨t, sc, u⟩ := l
    rw [he] at ha
    cases r <;> cases u <;> first | (cases ha; done) | (cases t <;> first | (cases ha; done) | rfl)

theorem nextContent_imp {k : List Stream → Res α × List Stream} {k' : List Stream → Res β × List Stream}
    (h : M.ImpOn Fresh R k k') {bufs : List Stream} (hb : Fresh bufs) {s : Stream} (hs : s.unexp = none) {a : α}
    (ha : (nextContent k bufs s).1 = .ok a) :
    ∃ b, (nextContent k' bufs s).1 = .ok b ∧ R a b ∧ (nextContent k bufs s).2 = (nextContent k' bufs s).2 := by
  unfold nextContent at ha ⊢
  split
  · rename_i he
    rw [if_pos he] at ha
    obtain ⟨b, h1, h2, h3⟩ := h (bufs ++ [s.fork]) (hb.append (.single rfl)) a ha
    exact ⟨b, h1, h2, by dsimp only; rw [h3]⟩
  · rename_i hn
    rw [if_neg hn] at ha
    cases he : enter .paren s with
    | error e => rw [he] at ha; cases ha
    | ok x =>
      obtain ⟨c, s'⟩ := x
      rw [he] at ha
      obtain ⟨b, h1, h2, h3⟩ := h (bufs ++ [c]) (hb.append (.single (enter_fresh he hs).1)) a ha
      exact ⟨b, h1, h2, by dsimp only; rw [h3]⟩

theorem parseNext_impOn {func : List (Str × Span) → M (List Stream) α} {func' : List (Str × Span) → M (List Stream) β}
    (h : ∀ ps, (func ps).ImpOn Fresh R (func' ps)) (attrs : List (List Tok × Str × Span)) (ps : List (Str × Span)) :
    (parseNext func attrs ps).ImpOn Fresh R (parseNext func' attrs ps) := by
  induction attrs generalizing ps with
  | nil =>
    intro l hl a ha
    simp only [parseNext, Bind.bind, M.bind] at ha ⊢
    have := h ps l hl
    generalize func ps l = x at this ha ⊢
    generalize func' ps l = y at this ⊢
    obtain ⟨x, lx⟩ := x
    obtain ⟨y, ly⟩ := y
    cases x with
    | err e => cases ha
    | panic => cases ha
    | ok x =>
      obtain ⟨b, h1, h2, h3⟩ := this x rfl
      dsimp only at h1 h3
      subst h1
      subst h3
      dsimp only at ha ⊢
      cases he : eofAll lx with
      | mk r l =>
        rw [he] at ha
        cases r with
        | ok u => cases ha; exact ⟨b, rfl, h2, rfl⟩
        | err e => cases ha
        | panic => cases ha
  | cons x attrs ih =>
    obtain ⟨toks, name, span⟩ := x
    intro bufs hb a ha
    have key := fun s hs a ha => nextContent_imp (ih (ps ++ [(name, span)])) hb (s := s) hs (a := a) ha
    simp only [parseNext] at ha ⊢
    obtain ⟨b, h1, h2⟩ := M.ImpOn.parseTokens (R := R) (m := fun s =>
        ((nextContent (parseNext func attrs (ps ++ [(name, span)])) bufs s).1,
          (nextContent (parseNext func attrs (ps ++ [(name, span)])) bufs s).2.2))
      (m' := fun s => ((nextContent (parseNext func' attrs (ps ++ [(name, span)])) bufs s).1,
          (nextContent (parseNext func' attrs (ps ++ [(name, span)])) bufs s).2.2))
      (fun s hs a ha => by
        obtain ⟨b, h1, h2, h3⟩ := key s hs a ha
        exact ⟨b, h1, h2, congrArg Prod.snd h3⟩) toks a ha
    refine ⟨b, h1, h2, ?_⟩
    obtain ⟨_, _, _, h3⟩ := key ⟨toks, callSite, none⟩ rfl a (parseTokens_gives ha)
    exact congrArg Prod.fst h3

theorem parseStructAttrTokens_imp {func : List (Str × Span) → M (List Stream) α}
    {func' : List (Str × Span) → M (List Stream) β} (h : ∀ ps, (func ps).ImpOn Fresh R (func' ps))
    (attrs : List (List Tok × Str × Span)) :
    Res.Imp R (parseStructAttrTokens attrs func) (parseStructAttrTokens attrs func') := by
  intro a ha
  obtain ⟨b, h1, h2, -⟩ := parseNext_impOn h attrs [] [] (fun _ h => (nomatch h)) a ha
  exact ⟨b, h1, h2⟩

end

section
variable [Env] {d d' : StructDef V}

omit [Env] in
/-- The names of the definition. -/
theorem Fields.Grows.fieldNames {d d' : Fields V} (h : d.Grows d') :
    ∀ k ∈ Field.fieldNames d.fields, k ∈ Field.fieldNames d'.fields := by
  intro k hk
  obtain ⟨f, hf, hk⟩ := List.mem_flatMap.1 hk
  obtain ⟨hf, hp⟩ := List.mem_filter.1 hf
  obtain ⟨i, hi⟩ := List.getElem?_of_mem hf
  obtain ⟨f', h1, h2⟩ := h.kept i f hi
  refine List.mem_flatMap.2 ⟨f', List.mem_filter.2 ⟨List.mem_of_getElem? h1, h2.isParsable.trans hp⟩, ?_⟩
  have e1 : f'.flatten = f.flatten := by rw [h2.same]
  have e2 : f'.flatNamed = f.flatNamed := by rw [h2.same]
  unfold Field.names at hk ⊢
  rw [e1, e2]
  split at hk
  · exact hk
  · exact hk
  · exact h2.names k hk

omit [Env] in
theorem Fields.Grows.acceptsAll {d d' : Fields V} (h : d.Grows d') (ha : Field.acceptsAll d.fields = true) :
    Field.acceptsAll d'.fields = true := by
  unfold Field.acceptsAll at ha ⊢
  simp only [Bool.or_eq_true, List.any_eq_true] at ha ⊢
  rcases ha with ⟨f, hm, hf⟩ | ⟨f, hm, hf⟩
  · obtain ⟨i, hi⟩ := List.getElem?_of_mem hm
    obtain ⟨f', h1, h2⟩ := h.kept i f hi
    refine .inl ⟨f', List.mem_of_getElem? h1, ?_⟩
    rw [h2.same]
    exact hf
  · obtain ⟨i, hi⟩ := List.getElem?_of_mem hm
    obtain ⟨f', h1, h2⟩ := h.kept i f hi
    refine .inr ⟨f', List.mem_of_getElem? h1, ?_⟩
    rw [h2.same]
    exact hf

end

end Deluxe
