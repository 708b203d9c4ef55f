import Verif.Spec.Cells
import Verif.Props.Reorder
/-!
# C103: the names that a derived type reports do not depend on what was asked before
-/
namespace Deluxe

namespace NamesCode

theorem size_lt_of_cells {t : NamesCode} {c : CellId} {b : NamesCode} (h : (c, b) ∈ t.cells) : sizeOf b < sizeOf t := by
  induction t with
  | done => simp [cells] at h
  | push names next ih =>
    have := ih h
    simp; omega
  | extend inner next ih1 ih2 =>
    rcases List.mem_append.1 h with h | h
    · have := ih1 h
      simp; omega
    · have := ih2 h
      simp; omega
  | prefixed pre inner ih =>
    have := ih h
    simp; omega
  | cell id body ih =>
    rcases List.mem_cons.1 h with h | h
    · cases h
      simp; omega
    · have := ih h
      simp; omega

/-- Each filled cell holds what its initializer collects. -/
def Holds (init : CellId → NamesCode) (cs : Cells) : Prop := ∀ c l, cs c = .full l → l = (init c).value

theorem run_value {init : CellId → NamesCode} (t : NamesCode) (ht : ∀ c b, (c, b) ∈ t.cells → b = init c) (cs : Cells)
    (hr : ∀ c b, (c, b) ∈ t.cells → cs c ≠ .running) (hc : Holds init cs) :
    ∃ cs', t.run cs = (some t.value, cs') ∧ Holds init cs' ∧ ∀ c, cs' c = .running ↔ cs c = .running := by
  induction t generalizing cs with
  | done => exact ⟨cs, rfl, hc, fun _ => Iff.rfl⟩
  | push names next ih =>
    obtain ⟨cs1, h1, h2, h3⟩ := ih ht cs hr hc
    exact ⟨cs1, by simp only [run, h1, value], h2, h3⟩
  | extend inner next ih1 ih2 =>
    obtain ⟨cs1, h1, h2, h3⟩ := ih1 (fun c b h => ht c b (List.mem_append_left _ h)) cs
      (fun c b h => hr c b (List.mem_append_left _ h)) hc
    obtain ⟨cs2, h4, h5, h6⟩ := ih2 (fun c b h => ht c b (List.mem_append_right _ h)) cs1
      (fun c b h hn => hr c b (List.mem_append_right _ h) ((h3 c).1 hn)) h2
    exact ⟨cs2, by simp only [run, h1, h4, value], h5, fun c => (h6 c).trans (h3 c)⟩
  | prefixed pre inner ih =>
    obtain ⟨cs1, h1, h2, h3⟩ := ih ht cs hr hc
    exact ⟨cs1, by simp only [run, h1, value], h2, h3⟩
  | cell id body ih =>
    have hb : body = init id := ht id body (List.mem_cons_self ..)
    have hsub : ∀ c b, (c, b) ∈ body.cells → b = init c := fun c b h => ht c b (List.mem_cons_of_mem _ h)
    cases e : cs id with
    | full l =>
      refine ⟨cs, ?_, hc, fun _ => Iff.rfl⟩
      simp only [run, Cells.getOrInit, e, value]
      rw [hc id l e, ← hb]
    | running => exact absurd e (hr id body (List.mem_cons_self ..))
    | empty =>
      have hself : ∀ c b, (c, b) ∈ body.cells → c ≠ id := by
        intro c b h hci
        have := size_lt_of_cells h
        rw [hsub c b h, hci, ← hb] at this
        exact Nat.lt_irrefl _ this
      obtain ⟨cs1, h1, h2, h3⟩ := ih hsub (cs.put id .running)
        (fun c b h => by
          rw [Cells.put, if_neg (hself c b h)]
          exact hr c b (List.mem_cons_of_mem _ h))
        (fun c l h => by
          by_cases hci : c = id
          · simp [Cells.put, hci] at h
          · rw [Cells.put, if_neg hci] at h
            exact hc c l h)
      refine ⟨cs1.put id (.full body.value), ?_, ?_, ?_⟩
      · simp only [run, Cells.getOrInit, e, h1, value]
      · intro c l h
        by_cases hci : c = id
        · rw [Cells.put, if_pos hci] at h
          cases h
          rw [hci, ← hb]
        · rw [Cells.put, if_neg hci] at h
          exact h2 c l h
      · intro c
        by_cases hci : c = id
        · rw [Cells.put, if_pos hci, hci, e]
          simp
        · have := h3 c
          rw [Cells.put, if_neg hci] at this ⊢
          exact this

theorem runAll_value {init : CellId → NamesCode} (ts : List NamesCode) (ht : ∀ t ∈ ts, ∀ c b, (c, b) ∈ t.cells → b = init c)
    (cs : Cells) (hr : ∀ c, cs c ≠ .running) (hc : Holds init cs) :
    (runAll ts cs).1 = ts.map fun t => some t.value := by
  induction ts generalizing cs with
  | nil => rfl
  | cons t ts ih =>
    obtain ⟨cs1, h1, h2, h3⟩ := run_value t (ht t (List.mem_cons_self ..)) cs (fun c _ _ => hr c) hc
    have := ih (fun t h => ht t (List.mem_cons_of_mem _ h)) cs1 (fun c h => hr c ((h3 c).1 h)) h2
    simp only [runAll, h1, this, List.map_cons]

end NamesCode

/-- C103: if every cell has one initializer then every call returns the names of its type, whatever was asked before. -/
theorem c103_names {ts : List NamesCode} (h : OneInit ts) :
    (NamesCode.runAll ts .start).1 = ts.map fun t => some t.value := by
  classical
  refine NamesCode.runAll_value (init := fun c =>
    if h : ∃ b, ∃ t ∈ ts, (c, b) ∈ t.cells then h.choose else .done) ts ?_ _ (fun c h => ?_) (fun c l h => ?_)
  · intro t ht c b hb
    have he : ∃ b, ∃ t ∈ ts, (c, b) ∈ t.cells := ⟨b, t, ht, hb⟩
    rw [dif_pos he]
    obtain ⟨t', ht', hb'⟩ := he.choose_spec
    exact h t ht t' ht' c _ _ hb hb'
  · cases h
  · cases h

section
variable {V : Type}

theorem namesCode_value (f : Field V) (id : CellId) {inner : NamesCode} (next : NamesCode)
    (h : f.isFlatten = true → inner.value = f.flatNamed.fieldNames) :
    (f.namesCode id inner next).value = f.names ++ next.value := by
  unfold Field.namesCode Field.names
  cases hf : f.flatten with
  | none => rfl
  | some fl =>
    obtain ⟨v, p⟩ := fl
    cases v with
    | false => rfl
    | true =>
      have := h (by simp [Field.isFlatten, hf])
      cases p with
      | none => simp only [NamesCode.value, this]
      | some p => simp only [NamesCode.value, this]

theorem names_foldr {fields : List (Field V × Nat)} (id : Nat → CellId) {inner : Nat → NamesCode} (last : NamesCode)
    (h : ∀ f i, (f, i) ∈ fields → f.isFlatten = true → (inner i).value = f.flatNamed.fieldNames) :
    (fields.foldr (fun x next => x.1.namesCode (id x.2) (inner x.2) next) last).value =
      fields.flatMap (fun x => x.1.names) ++ last.value := by
  induction fields with
  | nil => rfl
  | cons x fields ih =>
    rw [List.foldr_cons, namesCode_value _ _ _ (h x.1 x.2 (List.mem_cons_self ..)),
      ih fun f i hm => h f i (List.mem_cons_of_mem _ hm), List.flatMap_cons, List.append_assoc]

theorem flatMap_zipIdx_filter {α β : Type} (p : α → Bool) (g : α → List β) (l : List α) (n : Nat) :
    ((l.zipIdx n).filter fun x => p x.1).flatMap (fun x => g x.1) = (l.filter p).flatMap g := by
  induction l generalizing n with
  | nil => rfl
  | cons a l ih =>
    rw [List.zipIdx_cons, List.filter_cons, List.filter_cons]
    cases p a
    · exact ih _
    · simp only [if_true, List.flatMap_cons, ih]

theorem filter_flatMap {α β : Type} (p : α → Bool) (g : α → List β) (l : List α) :
    (l.filter p).flatMap g = l.flatMap fun a => if p a = true then g a else [] := by
  induction l with
  | nil => rfl
  | cons a l ih =>
    rw [List.filter_cons, List.flatMap_cons, ← ih]
    cases p a <;> rfl

/-- C103: the list is that of the fields, for a structure … -/
theorem c103_struct (k : Nat) {inner : Nat → NamesCode} (fields : List (Field V))
    (h : ∀ f i, (f, i) ∈ fields.zipIdx → f.isFlatten = true → (inner i).value = f.flatNamed.fieldNames) :
    (structNamesCode k inner fields).value = Field.fieldNames fields := by
  have : (structNamesBody k inner fields).value = Field.fieldNames fields := by
    unfold structNamesBody
    rw [names_foldr (fun i => (k, 0, i + 1)) _ fun f i hm => h f i (List.mem_filter.1 hm).1,
      flatMap_zipIdx_filter]
    simp [NamesCode.value, Field.fieldNames]
  unfold structNamesCode
  split
  · exact this
  · exact this

theorem variantCode_value (v : Variant V) (k j : Nat) {inner : Nat → NamesCode} (next : NamesCode)
    (h : ∀ f i, (f, i) ∈ v.fields.zipIdx → f.isFlatten = true → (inner i).value = f.flatNamed.fieldNames) :
    (v.namesCode k j inner next).value = v.names ++ next.value := by
  unfold Variant.namesCode Variant.names
  split
  · rw [names_foldr (fun i => (k, j + 1, i)) _ fun f i hm => h f i (List.mem_filter.1 hm).1, flatMap_zipIdx_filter,
      NamesCode.value, ← List.append_assoc]
    congr 2
    rw [filter_flatMap]
    refine congrArg (List.flatMap · v.fields) (funext fun f => ?_)
    unfold Field.isFlatten Field.names
    cases f.flatten with
    | none => rfl
    | some fl =>
      obtain ⟨b, p⟩ := fl
      cases b <;> cases p <;> rfl
  · rfl

/-- C103: … and for an enum. -/
theorem c103_enum (k : Nat) {inner : Nat → Nat → NamesCode} (e : EnumDef V)
    (h : ∀ v j, (v, j) ∈ e.variants.zipIdx → ∀ f i, (f, i) ∈ v.fields.zipIdx → f.isFlatten = true →
      (inner j i).value = f.flatNamed.fieldNames) :
    (enumNamesCode k inner e).value = e.fieldNames := by
  have key : ∀ l : List (Variant V × Nat), (∀ v j, (v, j) ∈ l → ∀ f i, (f, i) ∈ v.fields.zipIdx → f.isFlatten = true →
      (inner j i).value = f.flatNamed.fieldNames) →
      (List.foldr (fun (x : Variant V × Nat) next => x.1.namesCode k x.2 (inner x.2) next) NamesCode.done l).value =
        (l.map (·.1)).flatMap (·.names) := by
    intro l hl
    induction l with
    | nil => rfl
    | cons x l ih =>
      rw [List.foldr_cons, variantCode_value _ _ _ _ (hl x.1 x.2 (List.mem_cons_self ..)),
        ih fun v j hm => hl v j (List.mem_cons_of_mem _ hm), List.map_cons, List.flatMap_cons]
  have := key _ h
  rw [List.zipIdx_map_fst] at this
  unfold enumNamesCode
  dsimp only
  split
  · exact this
  · exact this

/-! ## Programs without generic types -/

/-- The structures of a program, none of them generic: `fields k` are the fields of structure `k`, and the type of field
`i` that is flattened is an earlier structure or a type with fixed names. -/
structure NamesProgram (V : Type) where
  fields : Nat → List (Field V)
  ref : Nat → Nat → Nat ⊕ List Str
  earlier : ∀ k i m, ref k i = .inl m → m < k

/-- `field_names()` of structure `k`. -/
def NamesProgram.code (p : NamesProgram V) (k : Nat) : NamesCode :=
  structNamesCode k (fun i => match h : p.ref k i with
    | .inl m => have := p.earlier k i m h; p.code m
    | .inr names => .push names .done) (p.fields k)
termination_by k

/-- The names of the type of a field are those that the type reports. -/
structure NamesProgram.Fits (p : NamesProgram V) : Prop where
  structs : ∀ k i f m, (p.fields k)[i]? = some f → f.isFlatten = true → p.ref k i = .inl m →
    f.flatNamed.fieldNames = Field.fieldNames (p.fields m)
  fixed : ∀ k i f names, (p.fields k)[i]? = some f → f.isFlatten = true → p.ref k i = .inr names →
    f.flatNamed.fieldNames = names

/-- `field_names()` of the type of field `i`. -/
def NamesProgram.inner (p : NamesProgram V) (k i : Nat) : NamesCode :=
  match p.ref k i with
  | .inl m => p.code m
  | .inr names => .push names .done

theorem NamesProgram.code_eq (p : NamesProgram V) (k : Nat) : p.code k = structNamesCode k (p.inner k) (p.fields k) := by
  rw [NamesProgram.code]
  congr 1
  funext i
  unfold NamesProgram.inner
  split
  · rename_i m h
    show p.code m = _
    rw [h]
  · rename_i h
    rw [h]

/-- The initializer of each cell. -/
def NamesProgram.init (p : NamesProgram V) : CellId → NamesCode
  | (k, _, 0) => structNamesBody k (p.inner k) (p.fields k)
  | (k, _, i + 1) =>
    .prefixed ((((p.fields k)[i]?).bind fun f => f.flatten.bind fun fl => fl.pre).getD []) (p.inner k i)

theorem foldr_cells {id : Nat → CellId} {inner : Nat → NamesCode} {l : List (Field V × Nat)} {c : CellId} {b : NamesCode}
    (h : (c, b) ∈ (l.foldr (fun x next => x.1.namesCode (id x.2) (inner x.2) next) NamesCode.done).cells) :
    ∃ f i, (f, i) ∈ l ∧ ((∃ pr, f.flatten = some ⟨true, some pr⟩ ∧ c = id i ∧ b = .prefixed pr (inner i)) ∨
      (c, b) ∈ (inner i).cells) := by
  induction l with
  | nil => simp [NamesCode.cells] at h
  | cons x l ih =>
    have hn : (c, b) ∈ (l.foldr (fun x next => x.1.namesCode (id x.2) (inner x.2) next) NamesCode.done).cells →
        ∃ f i, (f, i) ∈ x :: l ∧ ((∃ pr, f.flatten = some ⟨true, some pr⟩ ∧ c = id i ∧ b = .prefixed pr (inner i)) ∨
          (c, b) ∈ (inner i).cells) := by
      intro h
      obtain ⟨f, i, h1, h2⟩ := ih h
      exact ⟨f, i, List.mem_cons_of_mem _ h1, h2⟩
    rw [List.foldr_cons] at h
    unfold Field.namesCode at h
    cases hf : x.1.flatten with
    | none =>
      rw [hf] at h
      exact hn h
    | some fl =>
      obtain ⟨v, pr⟩ := fl
      rw [hf] at h
      cases v with
      | false => exact hn h
      | true =>
        cases pr with
        | none =>
          rcases List.mem_append.1 h with h | h
          · exact ⟨x.1, x.2, List.mem_cons_self .., .inr h⟩
          · exact hn h
        | some pr =>
          rcases List.mem_append.1 h with h | h
          · rcases List.mem_cons.1 h with h | h
            · cases h
              exact ⟨x.1, x.2, List.mem_cons_self .., .inl ⟨pr, hf, rfl, rfl⟩⟩
            · exact ⟨x.1, x.2, List.mem_cons_self .., .inr h⟩
          · exact hn h

theorem NamesProgram.init_eq (p : NamesProgram V) (k : Nat) {c : CellId} {b : NamesCode} (h : (c, b) ∈ (p.code k).cells) :
    b = p.init c := by
  induction k using Nat.strongRecOn generalizing c b with
  | ind k ih =>
    have hbody : (c, b) ∈ (structNamesBody k (p.inner k) (p.fields k)).cells → b = p.init c := by
      intro h
      obtain ⟨f, i, hm, h⟩ := foldr_cells (id := fun i => (k, 0, i + 1)) h
      rcases h with ⟨pr, hf, rfl, rfl⟩ | h
      · have := List.mem_zipIdx_iff_getElem?.1 (List.mem_filter.1 hm).1
        simp [NamesProgram.init, this, hf]
      · unfold NamesProgram.inner at h
        cases hr : p.ref k i with
        | inl m =>
          rw [hr] at h
          exact ih m (p.earlier k i m hr) h
        | inr names =>
          rw [hr] at h
          simp [NamesCode.cells] at h
    rw [p.code_eq, structNamesCode] at h
    split at h
    · rcases List.mem_cons.1 h with h | h
      · cases h
        rfl
      · exact hbody h
    · exact hbody h

theorem NamesProgram.value (p : NamesProgram V) (hf : p.Fits) (k : Nat) :
    (p.code k).value = Field.fieldNames (p.fields k) := by
  induction k using Nat.strongRecOn with
  | ind k ih =>
    rw [p.code_eq]
    refine c103_struct k _ fun f i hm hfl => ?_
    have hi := List.mem_zipIdx_iff_getElem?.1 hm
    unfold NamesProgram.inner
    cases hr : p.ref k i with
    | inl m =>
      dsimp only
      rw [ih m (p.earlier k i m hr), hf.structs k i f m hi hfl hr]
    | inr names =>
      dsimp only
      rw [hf.fixed k i f names hi hfl hr]
      simp [NamesCode.value]

/-- C103: in a program without generic structures every call returns the names of the fields, in whatever order and how
often the structures are asked. -/
theorem c103_program (p : NamesProgram V) (hf : p.Fits) (calls : List Nat) :
    (NamesCode.runAll (calls.map p.code) .start).1 = calls.map fun k => some (Field.fieldNames (p.fields k)) := by
  rw [c103_names, List.map_map]
  · exact List.map_congr_left fun k _ => congrArg some (p.value hf k)
  · intro t ht t' ht' c b b' hb hb'
    obtain ⟨k, -, rfl⟩ := List.mem_map.1 ht
    obtain ⟨k', -, rfl⟩ := List.mem_map.1 ht'
    rw [p.init_eq k hb, p.init_eq k' hb']

end

section
variable [Env]

/-- Two structures: `struct S0 { a: bool }` and `struct S1 { #[deluxe(flatten(prefix = p))] x: S0, #[deluxe(flatten)] y: S0 }`. -/
def demoNames : NamesProgram Bool where
  fields k := match k with
    | 0 => [plainField ['a'] boolDict]
    | 1 => [{ plainField ['x'] boolDict with
        flatten := some ⟨true, some ['p']⟩, flatNamed := ⟨false, [['a']], fun _ _ _ => M.panic⟩ },
        { plainField ['y'] boolDict with
        flatten := some ⟨true, none⟩, flatNamed := ⟨false, [['a']], fun _ _ _ => M.panic⟩ }]
    | _ => []
  ref k _ := if k = 1 then .inl 0 else .inr []
  earlier k i m h := by
    by_cases hk : k = 1
    · rw [if_pos hk] at h
      cases h
      omega
    · rw [if_neg hk] at h
      cases h

/-- C103: it meets the hypothesis of `c103_program`. -/
example : demoNames.Fits := by
  constructor
  · intro k i f m hf hl hr
    by_cases hk : k = 1
    · subst hk
      simp only [demoNames, if_true, Sum.inl.injEq] at hr
      subst hr
      match i with
      | 0 => cases hf; rfl
      | 1 => cases hf; rfl
      | n + 2 => cases hf
    · simp [demoNames, hk] at hr
  · intro k i f names hf hl hr
    match k with
    | 0 =>
      match i with
      | 0 => cases hf; cases hl
      | n + 1 => cases hf
    | 1 => simp [demoNames] at hr
    | n + 2 => cases hf

/-- C103: the second structure reports `p::a` and `a`. -/
example : Field.fieldNames (demoNames.fields 1) = [['p', ':', ':', 'a'], ['a']] := rfl

/-! ## Generic types -/

/-- The fields of `struct Wrap<T> { #[deluxe(flatten)] inner: T }` for a structure `T`. -/
def wrapFields (d : StructDef Bool) : List (Field (List Bool)) :=
  [{ plainField ['i'] d.dict with flatten := some ⟨true, none⟩, flatNamed := d.flatNamed }]

/-- `Wrap<T>` -/
def wrap (d : StructDef Bool) : StructDef (List Bool) := ⟨.named, wrapFields d, none, none, none, []⟩

/-- `struct { n: bool }` -/
def soleNamed (n : Str) : StructDef Bool := ⟨.named, [plainField n boolDict], none, none, none, []⟩

/-- `field_names()` of `Wrap<T>`, with that of `T`. -/
def wrapNames (t : NamesCode) (d : StructDef Bool) : NamesCode := structNamesCode 0 (fun _ => t) (wrapFields d)

/-- C103 does not hold for generic types.  `Wrap<A>` and `Wrap<B>` share the cell: after `Wrap<A>` was asked for its
names, `Wrap<B>` has the names of `A`.  Then it refuses the key `b` that it has a field for. -/
theorem c103_generic_violated :
    (∀ a b : Str, (NamesCode.runAll [wrapNames (structNamesCode 1 (fun _ => .done) (soleNamed a).fields) (soleNamed a),
      wrapNames (structNamesCode 2 (fun _ => .done) (soleNamed b).fields) (soleNamed b)] .start).1 =
        [some [a], some [a]]) ∧
    Field.fieldNames (wrap (soleNamed ['b'])).fields = [['b']] ∧
    (namedFlat (wrap (soleNamed ['b'])).data [['b']] .unnamed [] true [⟨[.ident ['b'] 1], 0, none⟩]).1 = .ok [[true]] ∧
    ∃ e, (namedFlat (wrap (soleNamed ['b'])).data [['a']] .unnamed [] true [⟨[.ident ['b'] 1], 0, none⟩]).1 = .err e :=
  ⟨fun _ _ => rfl, rfl, rfl, _, rfl⟩

/-- C103: `Wrap<Wrap<T>>` asks for its names while it collects them, which never ends: every parse of the type hangs
unless some `Wrap<T>` was used before. -/
theorem c103_nested_violated (t : NamesCode) (d d' : StructDef Bool) :
    ((wrapNames (wrapNames t d) d').run .start).1 = none := rfl

end

end Deluxe
