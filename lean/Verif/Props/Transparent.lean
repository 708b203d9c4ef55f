import Verif.Model.Transparent
import Verif.Lemmas.StructDef
import Verif.Lemmas.Attributes
import Verif.Props.Structs
/-!
# Transparent structures (C70, C71)
-/
namespace Deluxe

section
variable {V : Type} [Env]

/-! ## What a transparent structure is to give -/

/-- The transforms of a field are all `map`.  (The code for a transparent structure whose field has `and_then` does not
compile: macros/types/field.rs:669 uses `errors`, which 704-706 does not declare for it.) -/
def Field.MapsOnly (f : Field V) : Prop := ∀ t ∈ f.transforms, ∃ g, t = .map g

/-- The functions of `map` applied in the order in which they are written. -/
def Field.afterMaps (f : Field V) (v : V) : V :=
  f.transforms.foldl (fun v t => match t with
    | .map g => g v
    | .andThen _ => v) v

/-- `ws` are the field values when the field at `k` reads `v`: the read value or the default of the field after its
`map` functions, the given container, or what the structure's default has there. -/
def Wrapped (d : StructDef V) (obj : Option V) (k : Nat) (v : V) (ws : List V) : Prop :=
  ws.length = d.fields.length ∧
    ∀ i f, d.fields[i]? = some f →
      (i = k → ws[i]? = some (f.afterMaps v)) ∧
      (i ≠ k → (f.isContainer = true → ∀ o, obj = some o → ws[i]? = some (f.afterMaps o)) ∧
        ((f.isContainer = false ∨ obj = none) → ∀ x, f.default = some x → ws[i]? = some (f.afterMaps x)) ∧
        ((f.isContainer = false ∨ obj = none) → f.default = none → ∀ t, d.default = some t → ws[i]? = t[i]?))

/-- What the structure gives when its field gives `r`: the same error, or the structure with the value, on which the
functions of the structure's `and_then` are run in order. -/
def Gives (d : StructDef V) (obj : Option V) (k : Nat) : Res V → Res (List V) → Prop
  | .ok v, r => ∃ ws, Wrapped d obj k v ws ∧
      r = match d.andThens.foldlM (fun v g => g v) ws with
        | .ok x => .ok x
        | .error e => .err e
  | .err e, r => r = .err e
  | .panic, r => r = .panic

/-! ## Proofs -/

omit [Env] in
theorem foldl_maps (l : List (Transform V)) (h : ∀ t ∈ l, ∃ g, t = .map g) (st : FieldStatus V) (errs : Errors) :
    l.foldl (fun x t => Field.transform t x.1 x.2) (st, errs) =
      (st.map (l.foldl (fun v t => match t with
        | .map g => g v
        | .andThen _ => v)), errs) := by
  induction l generalizing st with
  | nil => cases st <;> rfl
  | cons t l ih =>
    obtain ⟨g, rfl⟩ := h t (by simp)
    have ih := fun st => ih (fun t ht => h t (by simp [ht])) st
    simp only [List.foldl_cons]
    cases st with
    | some v => exact (ih (.some (g v)))
    | none => exact (ih .none)
    | parseError => exact (ih .parseError)

omit [Env] in
theorem set_maps {f : Field V} (h : f.MapsOnly) (st : FieldStatus V) (errs : Errors) :
    f.set st errs = ((match f.default with
      | some d => st.orElse fun _ => .some d
      | none => st).map f.afterMaps, errs) :=
  foldl_maps f.transforms h _ errs

omit [Env] in
theorem setPass_maps {fs : List (Field V)} (h : ∀ f ∈ fs, f.MapsOnly) (sts : Slots V) (errs : Errors) :
    setPass fs sts errs = (List.zipWith (fun f st => (f.set st errs).1) fs sts, errs) := by
  induction fs generalizing sts with
  | nil => cases sts <;> rfl
  | cons f fs ih =>
    cases sts with
    | nil => rfl
    | cons st sts =>
      simp only [setPass, List.zipWith_cons_cons]
      rw [set_maps (h f (by simp)), ih fun g hg => h g (by simp [hg])]

omit [Env] in
/-- A list of statuses that are all set. -/
theorem exists_values {sts : List (FieldStatus V)} (h : ∀ (i : Nat) (st : FieldStatus V), sts[i]? = some st → ∃ v, st = .some v) :
    ∃ vs : List V, sts = vs.map .some := by
  induction sts with
  | nil => exact ⟨[], rfl⟩
  | cons st sts ih =>
    obtain ⟨v, rfl⟩ := h 0 st (by simp)
    obtain ⟨vs, rfl⟩ := ih fun i st hi => h (i + 1) st (by simpa using hi)
    exact ⟨v :: vs, rfl⟩

/-- The slot of the `i`-th field before defaults and transforms. -/
def plainSlot (obj : Option V) (k : Nat) (v : V) (i : Nat) (f : Field V) : FieldStatus V :=
  if i = k then .some v
  else if f.isContainer then .ofOption obj
  else .none

/-- The slot of the `i`-th field after defaults and transforms. -/
def filledSlot (obj : Option V) (k : Nat) (v : V) (i : Nat) (f : Field V) : FieldStatus V :=
  (match f.default with
    | some x => (plainSlot obj k v i f).orElse fun _ => .some x
    | none => plainSlot obj k v i f).map f.afterMaps

omit [Env] in
/-- The values after the field at `k` is set. -/
theorem wrapped_of_finish {d : StructDef V} {obj : Option V} {slots : Slots V} {k : Nat} {v : V}
    (hm : ∀ f ∈ d.fields, f.MapsOnly) (hlen : slots.length = d.fields.length)
    (hslot : ∀ i f, d.fields[i]? = some f → slots[i]? = some (plainSlot obj k v i f))
    (hfill : ∀ i f, d.fields[i]? = some f → i ≠ k →
      f.default.isSome = true ∨ d.default.isSome = true ∨ (f.isContainer = true ∧ obj.isSome = true))
    (ht : ∀ t, d.default = some t → t.length = d.fields.length) :
    ∃ ws, Wrapped d obj k v ws ∧
      finish d.data (setPass d.fields slots Errors.new).1 (setPass d.fields slots Errors.new).2 = .ok ws := by
  have hset : ∀ i f, d.fields[i]? = some f →
      (setPass d.fields slots Errors.new).1[i]? = some (filledSlot obj k v i f) := by
    intro i f hf
    rw [setPass_maps hm]
    simp only [List.getElem?_zipWith, hf, hslot i f hf]
    rw [set_maps (hm f (List.mem_of_getElem? hf))]
    rfl
  have hl : (setPass d.fields slots Errors.new).1.length = d.fields.length := by
    rw [setPass_maps hm]; simp [hlen]
  have he : (setPass d.fields slots Errors.new).2 = Errors.new := by rw [setPass_maps hm]
  rw [he]
  generalize (setPass d.fields slots Errors.new).1 = sl at hset hl
  show ∃ ws, Wrapped d obj k v ws ∧ (match d.default with
    | none => unwrapAll sl
    | some t => .ok (List.zipWith (fun (st : FieldStatus V) v => st.unwrapOr v) sl t)) = .ok ws
  cases hd : d.default with
  | none =>
    have : ∃ vs : List V, sl = vs.map .some := by
      refine exists_values fun i st hi => ?_
      have hlt : i < d.fields.length := hl ▸ (List.getElem?_eq_some_iff.1 hi).1
      obtain ⟨f, hf⟩ : ∃ f, d.fields[i]? = some f := ⟨_, List.getElem?_eq_getElem hlt⟩
      have h1 := hset i f hf
      rw [hi] at h1
      cases h1
      unfold filledSlot plainSlot
      by_cases hik : i = k
      · rw [if_pos hik]; cases f.default <;> exact ⟨_, rfl⟩
      · rw [if_neg hik]
        rcases hfill i f hf hik with h | h | ⟨h, h'⟩
        · cases hx : f.default with
          | none => simp [hx] at h
          | some x =>
            cases f.isContainer <;> cases obj <;> exact ⟨_, rfl⟩
        · simp [hd] at h
        · rw [if_pos h]
          cases obj with
          | none => simp at h'
          | some o => cases f.default <;> exact ⟨_, rfl⟩
    obtain ⟨ws, rfl⟩ := this
    refine ⟨ws, ⟨by simpa using hl, fun i f hf => ?_⟩, unwrapAll_some ws⟩
    have h1 := hset i f hf
    rw [List.getElem?_map] at h1
    have h2 : ∀ w, filledSlot obj k v i f = .some w → ws[i]? = some w := by
      intro w hw
      rw [hw] at h1
      cases hx : ws[i]? with
      | none => simp [hx] at h1
      | some y => simp only [hx, Option.map_some, Option.some.injEq, FieldStatus.some.injEq] at h1; rw [h1]
    refine ⟨fun hik => h2 _ ?_, fun hik => ⟨fun hc o ho => h2 _ ?_, fun hc x hx => h2 _ ?_, fun _ _ t h => ?_⟩⟩
    · unfold filledSlot plainSlot; rw [if_pos hik]; cases f.default <;> rfl
    · unfold filledSlot plainSlot; rw [if_neg hik, if_pos hc, ho]; cases f.default <;> rfl
    · unfold filledSlot plainSlot; rw [if_neg hik, hx]
      rcases hc with h | h
      · rw [h]; rfl
      · rw [h]; cases f.isContainer <;> rfl
    · rw [hd] at h; cases h
  | some t =>
    have htl := ht t hd
    refine ⟨_, ⟨by simp [hl, htl], fun i f hf => ?_⟩, rfl⟩
    have hlt : i < d.fields.length := (List.getElem?_eq_some_iff.1 hf).1
    obtain ⟨y, hy⟩ : ∃ y, t[i]? = some y := ⟨_, List.getElem?_eq_getElem (htl ▸ hlt)⟩
    simp only [List.getElem?_zipWith, hset i f hf, hy]
    refine ⟨fun hik => ?_, fun hik => ⟨fun hc o ho => ?_, fun hc x hx => ?_, fun hc hx t' h => ?_⟩⟩
    · unfold filledSlot plainSlot; rw [if_pos hik]; cases f.default <;> rfl
    · unfold filledSlot plainSlot; rw [if_neg hik, if_pos hc, ho]; cases f.default <;> rfl
    · unfold filledSlot plainSlot; rw [if_neg hik, hx]
      rcases hc with h | h
      · rw [h]; rfl
      · rw [h]; cases f.isContainer <;> rfl
    · rw [hd] at h; cases h
      rw [hy]
      unfold filledSlot plainSlot; rw [if_neg hik, hx]
      rcases hc with h | h
      · rw [h]; rfl
      · rw [h]; cases f.isContainer <;> rfl

omit [Env] in
/-- The values are determined: C70 says which structure is built. -/
theorem Wrapped.unique {d : StructDef V} {obj : Option V} {k : Nat} {v : V} {ws ws' : List V}
    (hfill : ∀ i f, d.fields[i]? = some f → i ≠ k →
      f.default.isSome = true ∨ d.default.isSome = true ∨ (f.isContainer = true ∧ obj.isSome = true))
    (h : Wrapped d obj k v ws) (h' : Wrapped d obj k v ws') : ws = ws' := by
  refine List.ext_getElem? fun i => ?_
  cases hf : d.fields[i]? with
  | none =>
    have hge : d.fields.length ≤ i := List.getElem?_eq_none_iff.1 hf
    rw [List.getElem?_eq_none (h.1 ▸ hge), List.getElem?_eq_none (h'.1 ▸ hge)]
  | some f =>
    obtain ⟨a, b⟩ := h.2 i f hf
    obtain ⟨a', b'⟩ := h'.2 i f hf
    by_cases hik : i = k
    · rw [a hik, a' hik]
    · obtain ⟨b1, b2, b3⟩ := b hik
      obtain ⟨b1', b2', b3'⟩ := b' hik
      by_cases hc : f.isContainer = true ∧ obj.isSome = true
      · obtain ⟨o, ho⟩ := Option.isSome_iff_exists.1 hc.2
        rw [b1 hc.1 o ho, b1' hc.1 o ho]
      · have hc' : f.isContainer = false ∨ obj = none := by
          cases h1 : f.isContainer with
          | false => exact .inl rfl
          | true => cases h2 : obj with
            | none => exact .inr rfl
            | some o => exact absurd ⟨h1, by rw [h2]; rfl⟩ hc
        cases hx : f.default with
        | some x => rw [b2 hc' x hx, b2' hc' x hx]
        | none =>
          rcases hfill i f hf hik with h | h | h
          · simp [hx] at h
          · obtain ⟨t, ht⟩ := Option.isSome_iff_exists.1 h
            rw [b3 hc' hx t ht, b3' hc' hx t ht]
          · exact absurd h hc

omit [Env] in
/-- What the derive has checked of the field at `k` of a transparent structure. -/
theorem StructDef.Accepted.fill {d : StructDef V} (ha : d.Accepted) (ht : d.isTransparent = true)
    {f : Field V} {k : Nat} (hf : d.fields[k]? = some f) (hp : f.isParsable = true) (i : Nat) (g : Field V)
    (hg : d.fields[i]? = some g) (hik : i ≠ k) :
    g.default.isSome = true ∨ d.default.isSome = true ∨ (g.isContainer = true ∧ (none : Option V).isSome = true) := by
  have hno : g.isParsable = false := by
    cases hq : g.isParsable with
    | false => rfl
    | true => exact absurd (countP_one_unique (ha.transparent ht) hg hq hf hp) hik
  rcases ha.fields.filled g (List.mem_of_getElem? hg) hno with h | h | h
  · exact .inl h
  · exact .inr (.inl h)
  · simp [StructDef.data] at h

omit [Env] in
theorem runAndThens_foldlM {α : Type} (fs : List (α → Except SynErr α)) (v : α) : runAndThens fs (.ok v) =
    match fs.foldlM (fun v g => g v) v with
      | .ok x => .ok x
      | .error e => .err e := by
  unfold runAndThens
  dsimp only
  cases fs.foldlM (fun v g => g v) v <;> rfl

omit [Env] in
theorem gives_post {d : StructDef V} (ha : d.Accepted) (ht : d.isTransparent = true)
    (hm : ∀ f ∈ d.fields, f.MapsOnly) {f : Field V} {k : Nat} (hf : d.fields[k]? = some f)
    (hp : f.isParsable = true) (r : Res V) : Gives d none k r (transparentPost d k r) := by
  cases r with
  | panic => rfl
  | err e => rfl
  | ok v =>
    have hk : k < d.fields.length := (List.getElem?_eq_some_iff.1 hf).1
    obtain ⟨ws, hw, hws⟩ := wrapped_of_finish (d := d) (obj := none) (k := k) (v := v)
      (slots := d.data.init.set k (.some v)) hm (by simp [Fields.init, StructDef.data])
      (fun i g hg => by
        unfold plainSlot
        by_cases hik : i = k
        · subst hik
          rw [if_pos rfl]
          exact List.getElem?_set_self (by simpa [Fields.init, StructDef.data] using hk)
        · rw [if_neg hik, List.getElem?_set_ne (Ne.symm hik)]
          simp only [Fields.init, StructDef.data, List.getElem?_map, hg, Option.map_some]
          cases g.isContainer <;> rfl)
      (ha.fill ht hf hp) ha.fields.target
    refine ⟨ws, hw, ?_⟩
    simp only [transparentPost]
    rw [hws]
    rw [runAndThens_foldlM]
    cases d.andThens.foldlM (fun v g => g v) ws <;> rfl

omit [Env] in
/-- The field of a transparent structure: the one that is parsed and is not flat. -/
theorem transparentField_iff {d : StructDef V} (ha : d.fields.countP (·.isParsable) = 1) (ht : d.isTransparent = true) {f : Field V} {k : Nat}
    (hf : d.fields[k]? = some f) (hp : f.isParsable = true) : d.transparentField = some (f, k) := by
  have hflat : ∃ g j, d.fields[j]? = some g ∧ g.isParsable = true ∧ g.isFlat = false ∧
      d.transparentField = some (g, j) := by
    unfold StructDef.transparentField
    cases hx : d.fields.zipIdx.find? fun x => x.1.isParsable && !x.1.isFlat with
    | none =>
      rw [List.find?_eq_none] at hx
      simp only [StructDef.isTransparent, Bool.and_eq_true, beq_iff_eq] at ht
      have hnil : (d.fields.filter fun f => f.isParsable && !f.isFlat) = [] := by
        rw [List.filter_eq_nil_iff]
        intro g hg
        obtain ⟨j, hj⟩ := List.getElem?_of_mem hg
        exact hx (g, j) (List.mem_zipIdx_iff_getElem?.2 hj)
      rw [hnil] at ht
      simp at ht
    | some x =>
      obtain ⟨g, j⟩ := x
      have h1 := List.find?_some hx
      have h2 := List.mem_zipIdx_iff_getElem?.1 (List.mem_of_find?_eq_some hx)
      simp only [Bool.and_eq_true, Bool.not_eq_true'] at h1
      exact ⟨g, j, h2, h1.1, h1.2, rfl⟩
  obtain ⟨g, j, hg, hgp, -, h⟩ := hflat
  have hjk := countP_one_unique ha hg hgp hf hp
  subst hjk
  rw [hf] at hg
  cases hg
  exact h

omit [Env] in
/-- Conversion of the value commutes with the choice of form. -/
theorem parseNamedMetaItem_natural {α β : Type} (g : α → β) (parse : Mode → M Stream α)
    (inline : Mode → M (List Stream) α) (flag : Span → Res α) (sp : Span) (s : Stream) :
    parseNamedMetaItem (fun m => (parse m).mapRes (Res.map g)) (fun m => (inline m).mapRes (Res.map g))
        (fun sp => (flag sp).map g) sp s =
      ((parseNamedMetaItem parse inline flag sp s).1.map g, (parseNamedMetaItem parse inline flag sp s).2) := by
  unfold parseNamedMetaItem
  split
  · show M.bind _ _ s = _
    have hr : ((do parsePunct '='; parse (.named sp)) : M Stream α) s =
      M.bind (parsePunct '=') (fun _ => parse (.named sp)) s := rfl
    rw [hr, M.bind_apply, M.bind_apply]
    cases h : parsePunct '=' s with
    | mk r s' => cases r <;> rfl
  · split
    · unfold parseDelimitedMetaItem parseDelimitedWith withContent
      cases h : enter .paren s with
      | error e => rfl
      | ok x =>
        obtain ⟨content, s'⟩ := x
        dsimp only
        have hb : ∀ {γ : Type} (m : M Stream γ) (c : Stream),
            (do let r ← m; parseEof; pure r : M Stream γ) c =
              M.bind m (fun r => M.bind parseEof fun _ => pure r) c := fun _ _ => rfl
        rw [hb, hb, M.bind_apply, M.bind_apply]
        have hs : single ((inline (.named sp)).mapRes (Res.map g)) content =
            ((single (inline (.named sp)) content).1.map g, (single (inline (.named sp)) content).2) := rfl
        rw [hs]
        cases h2 : single (inline (.named sp)) content with
        | mk r c =>
          cases r with
          | panic => rfl
          | err e => rfl
          | ok v =>
            dsimp only [Res.map]
            rw [M.bind_apply, M.bind_apply]
            cases h3 : parseEof c with
            | mk r2 c2 => cases r2 <;> rfl
    · rfl

/-- What functions that are run on the value of an item before the check for what is left may do: they see the value
if the item is read, and nothing they do turns a failure into a success. -/
def After {α β : Type} (post : Res α → Res β) : Res α × Stream → Res β × Stream → Prop
  | (.ok v, t), (r, t') => r = post (.ok v) ∧ (r.isOk = true → t' = t)
  | (.err _, _), (r, _) => ∃ e, r = .err e
  | (.panic, _), (r, _) => r = .panic

omit [Env] in
theorem parseNamedMetaItem_post {α β : Type} (post : Res α → Res β) (he : ∀ e, post (.err e) = .err e)
    (hpn : post .panic = .panic) (hnp : ∀ v, post (.ok v) ≠ .panic) (parse : Mode → M Stream α)
    (inline : Mode → M (List Stream) α) (flag : Span → Res α) (sp : Span) (s : Stream) :
    After post (parseNamedMetaItem parse inline flag sp s) (parseNamedMetaItem (fun m => (parse m).mapRes post)
        (fun m => (inline m).mapRes post) (fun sp => post (flag sp)) sp s) := by
  unfold parseNamedMetaItem
  split
  · simp only [bind, M.bind, M.mapRes]
    rcases h : parsePunct '=' s with ⟨r | e | _, s1⟩
    · dsimp only
      rcases h2 : parse (.named sp) s1 with ⟨r | e | _, s2⟩ <;> simp_all [After]
    · simp [After]
    · simp [After]
  · split
    · simp only [parseDelimitedMetaItem, parseDelimitedWith, withContent, single, M.mapRes, bind, M.bind, pure, M.pure]
      cases h : enter .paren s with
      | error e => simp [After]
      | ok x =>
        obtain ⟨content, s1⟩ := x
        dsimp only
        rcases hg : inline (.named sp) [content] with ⟨r | e | _, l⟩
        · dsimp only
          rcases hq : parseEof (l.headD content) with ⟨_ | e | _, c'⟩ <;>
            rcases hr : post (.ok r) with w | e | _ <;> simp_all [Res.isOk, After]
          all_goals (simp [parseEof] at hq; split at hq <;> simp at hq)
        · simp_all [After]
        · simp_all [After]
    · rcases h2 : flag sp with r | e | _ <;> simp_all [After]

/-! ## C70 -/

section
variable {d : StructDef V} (ha : d.Accepted) (ht : d.isTransparent = true) (hm : ∀ f ∈ d.fields, f.MapsOnly)
  {f : Field V} {k : Nat} (hf : d.fields[k]? = some f) (hp : f.isParsable = true)
include ha ht hm hf hp

omit hm in
theorem dict_transparent : d.dict =
    .mk' (parse := fun mode => (f.item.parse mode).mapRes (transparentPost d k))
      (inline := fun mode => (f.item.inline mode).mapRes (transparentPost d k))
      (flag := fun sp => transparentPost d k (f.item.flag sp))
      (missing := d.missing) := by
  have h := transparentField_iff (ha.transparent ht) ht hf hp
  unfold StructDef.transparentField at h
  unfold StructDef.dict
  rw [if_pos ht, h]

/-- C70: after `=` and in lists a transparent structure takes the tokens that its field takes. -/
theorem c70_parse (mode : Mode) (s : Stream) :
    (d.dict.parse mode s).2 = (f.item.parse mode s).2 ∧
      Gives d none k (f.item.parse mode s).1 (d.dict.parse mode s).1 := by
  rw [dict_transparent ha ht hf hp]
  exact ⟨rfl, gives_post ha ht hm hf hp _⟩

/-- C70: inside parentheses. -/
theorem c70_inline (mode : Mode) (l : List Stream) :
    (d.dict.inline mode l).2 = (f.item.inline mode l).2 ∧
      Gives d none k (f.item.inline mode l).1 (d.dict.inline mode l).1 := by
  rw [dict_transparent ha ht hf hp]
  exact ⟨rfl, gives_post ha ht hm hf hp _⟩

/-- C70: as a bare name. -/
theorem c70_flag (sp : Span) : Gives d none k (f.item.flag sp) (d.dict.flag sp) := by
  rw [dict_transparent ha ht hf hp]
  exact gives_post ha ht hm hf hp _

theorem named_transparent (hn : f.item.named = fun _ sp => parseNamedMetaItem f.item.parse f.item.inline f.item.flag sp)
    (hand : d.andThens = []) : ∃ g : V → List V, (∀ r, transparentPost d k r = r.map g) ∧
      ∀ name sp s, d.dict.named name sp s = ((f.item.named name sp s).1.map g, (f.item.named name sp s).2) := by
  have hpost : ∀ r, transparentPost d k r = r.map fun v => match transparentPost d k (.ok v) with
      | .ok ws => ws
      | _ => [] := by
    intro r
    cases r with
    | panic => rfl
    | err e => rfl
    | ok v =>
      obtain ⟨ws, -, h⟩ := gives_post ha ht hm hf hp (.ok v)
      rw [hand] at h
      simp only [Res.map]
      rw [h]
      rfl
  refine ⟨_, hpost, fun name sp s => ?_⟩
  rw [dict_transparent ha ht hf hp, hn]
  simp only [Dict.mk']
  rw [← parseNamedMetaItem_natural, ← funext hpost]

/-- C70: a transparent structure without `and_then` reads an item `name ..` exactly like its field, if the field reads
it in the default way (core/parse_meta.rs:122-130). -/
theorem c70_named (hn : f.item.named = fun _ sp => parseNamedMetaItem f.item.parse f.item.inline f.item.flag sp)
    (hand : d.andThens = []) (name : Str) (sp : Span) (s : Stream) :
    (d.dict.named name sp s).2 = (f.item.named name sp s).2 ∧
      Gives d none k (f.item.named name sp s).1 (d.dict.named name sp s).1 := by
  obtain ⟨g, h1, h2⟩ := named_transparent ha ht hm hf hp hn hand
  rw [h2]
  refine ⟨rfl, ?_⟩
  dsimp only
  rw [← h1]
  exact gives_post ha ht hm hf hp _

/-- C70: with any `and_then`, which runs before the check for leftover tokens: if the field reads the item, the
structure has its value with the functions run on it, and takes the same tokens if they succeed; if the field
refuses the item, so does the structure (the message may be that of a function). -/
theorem c70_named_functions
    (hn : f.item.named = fun _ sp => parseNamedMetaItem f.item.parse f.item.inline f.item.flag sp)
    (name : Str) (sp : Span) (s : Stream) :
    (∀ v t, f.item.named name sp s = (.ok v, t) → Gives d none k (.ok v) (d.dict.named name sp s).1 ∧
      ((d.dict.named name sp s).1.isOk = true → (d.dict.named name sp s).2 = t)) ∧
    (∀ e, (f.item.named name sp s).1 = .err e → ∃ e', (d.dict.named name sp s).1 = .err e') ∧
    ((f.item.named name sp s).1 = .panic → (d.dict.named name sp s).1 = .panic) := by
  have hg := fun v => gives_post ha ht hm hf hp (.ok v)
  have h := parseNamedMetaItem_post (transparentPost d k) (fun _ => rfl) rfl
    (fun v hv => by
      obtain ⟨ws, -, h⟩ := hg v
      rw [hv] at h
      split at h <;> cases h) f.item.parse f.item.inline f.item.flag sp s
  have hd : d.dict.named name sp s = parseNamedMetaItem (fun m => (f.item.parse m).mapRes (transparentPost d k))
      (fun m => (f.item.inline m).mapRes (transparentPost d k)) (fun sp => transparentPost d k (f.item.flag sp)) sp s := by
    rw [dict_transparent ha ht hf hp]
    rfl
  rw [hd, hn]
  dsimp only
  generalize parseNamedMetaItem (fun m => (f.item.parse m).mapRes (transparentPost d k))
    (fun m => (f.item.inline m).mapRes (transparentPost d k)) (fun sp => transparentPost d k (f.item.flag sp)) sp s = y at h
  obtain ⟨r, t'⟩ := y
  rcases hx : parseNamedMetaItem f.item.parse f.item.inline f.item.flag sp s with ⟨v | e | _, t⟩ <;> rw [hx] at h
  · refine ⟨fun v' t2 h2 => ?_, fun e h2 => ?_, fun h2 => ?_⟩ <;> cases h2
    exact ⟨h.1 ▸ hg v, h.2⟩
  · exact ⟨fun v' t2 h2 => (by cases h2), fun e h2 => h, fun h2 => (by cases h2)⟩
  · exact ⟨fun v' t2 h2 => (by cases h2), fun e h2 => (by cases h2), fun h2 => h⟩

omit hm in
/-- C70: a missing transparent structure is its default, if it has one. -/
theorem c70_missing_partial (t : List V) (h : d.default = some t) (name : Str) (sp : Span) :
    d.dict.missing name sp = .ok t := by
  rw [dict_transparent ha ht hf hp]
  simp only [Dict.mk', StructDef.missing, h]

/-! ## C71 -/

/-- C71: with `transparent(flatten_named)` the structure can be flattened like its field. -/
theorem c71_flat_named (o : TransparentOpts) (ho : o.flattenNamed = some true) :
    ∃ t, d.implFlatNamed o = some t ∧ t.acceptsAll = f.flatNamed.acceptsAll ∧
      t.fieldNames = f.flatNamed.fieldNames ∧
      ∀ mode pre validate l, (t.parse mode pre validate l).2 = (f.flatNamed.parse mode pre validate l).2 ∧
        Gives d none k (f.flatNamed.parse mode pre validate l).1 (t.parse mode pre validate l).1 := by
  refine ⟨⟨f.flatNamed.acceptsAll, f.flatNamed.fieldNames, fun mode pre validate =>
    (f.flatNamed.parse mode pre validate).mapRes (transparentPost d k)⟩, ?_, rfl, rfl,
    fun mode pre validate l => ⟨rfl, gives_post ha ht hm hf hp _⟩⟩
  unfold StructDef.implFlatNamed
  rw [if_pos ht, ho, transparentField_iff (ha.transparent ht) ht hf hp]
  rfl

/-- C71: with `transparent(flatten_unnamed)` it can be flattened into a tuple like its field.  Missing, because it does
not hold: the numbers of fields in a tuple structure, see `c71_index_violated`. -/
theorem c71_flat_unnamed_partial (o : TransparentOpts) (ho : o.flattenUnnamed = some true) :
    ∃ t, d.implFlatUnnamed o = some t ∧ t.fieldCount = f.flatUnnamed.fieldCount ∧
      ∀ mode index l, d.shape ≠ .unnamed ∨ index = 0 →
        (t.parse mode index l).2 = (f.flatUnnamed.parse mode index l).2 ∧
        Gives d none k (f.flatUnnamed.parse mode index l).1 (t.parse mode index l).1 := by
  refine ⟨⟨f.flatUnnamed.fieldCount, fun mode index => (f.flatUnnamed.parse mode
    (if d.shape = .unnamed then 0 else index)).mapRes (transparentPost d k)⟩, ?_, rfl, fun mode index l h => ?_⟩
  · unfold StructDef.implFlatUnnamed
    rw [if_pos ht, ho, transparentField_iff (ha.transparent ht) ht hf hp]
    rfl
  · have hi : (if d.shape = .unnamed then 0 else index) = index := by
      rcases h with h | h
      · rw [if_neg h]
      · rw [h]; split <;> rfl
    simp only [hi]
    exact ⟨rfl, gives_post ha ht hm hf hp _⟩

omit [Env] in
/-- C71: with `transparent(rest)` it can be the rest like its field. -/
theorem c71_rest (o : TransparentOpts) (ho : o.rest = some true) :
    ∃ t, d.implRest o = some t ∧ ∀ exclude l, (t exclude l).2 = (f.restP exclude l).2 ∧
      Gives d none k (f.restP exclude l).1 (t exclude l).1 := by
  refine ⟨fun exclude => (f.restP exclude).mapRes (transparentPost d k), ?_,
    fun exclude l => ⟨rfl, gives_post ha ht hm hf hp _⟩⟩
  unfold StructDef.implRest
  rw [ht, ho, transparentField_iff (ha.transparent ht) ht hf hp]
  rfl

omit [Env] in
/-- C71: with `transparent(append)` it can be appended to like its field. -/
theorem c71_append (o : TransparentOpts) (ho : o.append = some true) :
    ∃ t, d.implAppend o = some t ∧ ∀ paths l, (t paths l).2 = (f.appendP paths l).2 ∧
      Gives d none k (f.appendP paths l).1 (t paths l).1 := by
  refine ⟨fun paths => (f.appendP paths).mapRes (transparentPost d k), ?_,
    fun paths l => ⟨rfl, gives_post ha ht hm hf hp _⟩⟩
  unfold StructDef.implAppend
  rw [ht, ho, transparentField_iff (ha.transparent ht) ht hf hp]
  rfl

omit hm in
/-- C71: a trait that is not asked for is not implemented. -/
theorem c71_only_asked (o : TransparentOpts) :
    ((d.implFlatNamed o).isSome = true ↔ o.flattenNamed = some true) ∧
    ((d.implFlatUnnamed o).isSome = true ↔ o.flattenUnnamed = some true) ∧
    ((d.implRest o).isSome = true ↔ o.rest = some true) ∧
    ((d.implAppend o).isSome = true ↔ o.append = some true) := by
  have h := transparentField_iff (ha.transparent ht) ht hf hp
  have hb : ∀ b : Option Bool, b.getD false = true ↔ b = some true := by
    intro b; cases b <;> simp
  unfold StructDef.implFlatNamed StructDef.implFlatUnnamed StructDef.implRest StructDef.implAppend
  rw [ht, h]
  refine ⟨?_, ?_, ?_, ?_⟩ <;> rw [← hb] <;> split <;> simp_all

end

omit [Env] in
/-- C70 in the attribute derives: the content of the attributes is read like the field, and a container field holds the
object. -/
theorem c70_attr {d : StructDef V} (ha : d.AttrAccepted) (ht : d.isTransparent = true)
    (hm : ∀ f ∈ d.fields, f.MapsOnly) {f : Field V} {k : Nat} (hf : d.fields[k]? = some f)
    (hp : f.isParsable = true) [Env] (o : V) (n : Option Str) (mode : Mode) (l : List Stream) :
    (d.attrBody ⟨some o, n⟩ mode l).2 = (f.item.inline mode l).2 ∧
      Gives d (some o) k (f.item.inline mode l).1 (d.attrBody ⟨some o, n⟩ mode l).1 := by
  have h := transparentField_iff (ha.transparent ht) ht hf hp
  unfold StructDef.transparentField at h
  unfold StructDef.attrBody
  rw [if_pos ht, h]
  refine ⟨rfl, ?_⟩
  show Gives d (some o) k (f.item.inline mode l).1 (d.attrTransparentPost ⟨some o, n⟩ k (f.item.inline mode l).1)
  cases hr : (f.item.inline mode l).1 with
  | panic => rfl
  | err e => rfl
  | ok v =>
    have hk : k < d.fields.length := (List.getElem?_eq_some_iff.1 hf).1
    have hc : f.isContainer = false := by
      unfold Field.isParsable at hp
      cases hx : f.isContainer <;> simp_all
    obtain ⟨ws, hw, hws⟩ := wrapped_of_finish (d := d) (obj := some o) (k := k) (v := v)
      (slots := List.zipWith (containerSet (d.attrData ⟨some o, n⟩)) d.fields (d.data.init.set k (.some v))) hm
      (by simp [Fields.init, StructDef.data])
      (fun i g hg => by
        unfold plainSlot
        by_cases hik : i = k
        · subst hik
          have h0 : (d.data.init.set i (.some v))[i]? = some (.some v) :=
            List.getElem?_set_self (by simpa [Fields.init, StructDef.data] using hk)
          rw [hf] at hg
          cases hg
          simp only [List.getElem?_zipWith, hf, h0, if_true]
          cases hob : (d.attrData ⟨some o, n⟩).obj <;> simp [containerSet, hc, hob]
        · have h0 : (d.data.init.set k (.some v))[i]? = some .none := by
            rw [List.getElem?_set_ne (Ne.symm hik)]
            simp only [Fields.init, StructDef.data, List.getElem?_map, hg, Option.map_some]
          simp only [List.getElem?_zipWith, hg, h0, hik, if_false]
          cases hx : g.isContainer <;> simp [containerSet, hx, StructDef.attrData, FieldStatus.ofOption])
      (fun i g hg hik => by
        have hno : g.isParsable = false := by
          cases hq : g.isParsable with
          | false => rfl
          | true => exact absurd (countP_one_unique (ha.transparent ht) hg hq hf hp) hik
        rcases ha.filled g (List.mem_of_getElem? hg) hno with h | h | h
        · exact .inl h
        · exact .inr (.inl h)
        · exact .inr (.inr ⟨h, rfl⟩))
      ha.target
    refine ⟨ws, hw, ?_⟩
    simp only [StructDef.attrTransparentPost]
    rw [hws, runAndThens_foldlM]
    cases d.andThens.foldlM (fun v g => g v) ws <;> rfl

/-! ## Where the structure is not like its field -/

/-- `#[deluxe(transparent)] struct W(T);` -/
def newtype (item : Dict V) (flat : FlatUnnamed V) : StructDef V where
  shape := .unnamed
  fields := [{ plainField [] item with ident := none, idents := [], flatUnnamed := flat }]
  default := none
  transparent := some true
  allowUnknown := none
  andThens := []

omit [Env] in
theorem newtype_accepted (item : Dict V) (flat : FlatUnnamed V) :
    (newtype item flat).Accepted ∧ (newtype item flat).isTransparent = true := by
  refine ⟨⟨⟨?_, ?_⟩, fun _ => rfl, ?_⟩, rfl⟩
  · intro f hf hp
    simp only [newtype, StructDef.data, List.mem_singleton] at hf
    subst hf
    simp [plainField, Field.isParsable, Field.isContainer] at hp
  · intro t ht; cases ht
  · intro _ f hf
    simp only [newtype, List.mem_singleton] at hf
    subst hf
    simp [plainField]

/-- C70 does not hold for missing items: an `Option` may be left out, a transparent structure around it may not. -/
theorem c70_missing_violated {α : Type} (d : Dict α) (name : Str) (sp : Span) :
    (optionDict d).missing name sp = .ok none ∧
      (newtype (optionDict d) ⟨none, fun _ _ => M.panic⟩).dict.missing name sp = .err (missingFieldError name sp) :=
  ⟨rfl, rfl⟩

/-- `struct Inner(bool);` -/
def innerTuple : StructDef Bool where
  shape := .unnamed
  fields := [{ plainField [] boolDict with ident := none, idents := [] }]
  default := none
  transparent := none
  allowUnknown := none
  andThens := []

end

/-- C71 does not hold for the numbers of fields: in `struct Outer(bool, #[deluxe(flatten)] W);` with
`#[deluxe(transparent(flatten_unnamed))] struct W(Inner);` a missing field of `Inner` is reported as field 0, while with
`Inner` in the place of `W` it is reported as field 1. -/
theorem c71_index_violated [Env] (o : TransparentOpts) (ho : o.flattenUnnamed = some true) (sp : Span) :
    ∃ t, (newtype innerTuple.dict innerTuple.flatUnnamed).implFlatUnnamed o = some t ∧
      (innerTuple.flatUnnamed.parse (.named sp) 1 [⟨[], 0, none⟩]).1 = .err (missingFieldError ['1'] sp) ∧
      (t.parse (.named sp) 1 [⟨[], 0, none⟩]).1 = .err (missingFieldError ['0'] sp) := by
  have h : ∀ i, (innerTuple.flatUnnamed.parse (.named sp) i [⟨[], 0, none⟩]).1 =
      .err (missingFieldError (toString i).toList sp) := by
    intro i
    have hloop : ∀ k, parseTupleStruct (unnamedStep innerTuple.data) 1 (k, [⟨[], 0, none⟩]) =
        (.ok 0, (k, [⟨[], 0, none⟩])) := by
      intro k
      simp [parseTupleStruct, parseTupleStruct.go, tupleLoop, Stream.isEmpty]
    show runAndThens [] (unnamedFlat innerTuple.data (.named sp) i [⟨[], 0, none⟩]).1 = _
    unfold unnamedFlat
    rw [show innerTuple.data.fields.countP (·.isParsable) = 1 from rfl, if_neg (by decide), hloop]
    rfl
  refine ⟨_, by unfold StructDef.implFlatUnnamed; rw [ho]; rfl, h 1, ?_⟩
  · show transparentPost (newtype innerTuple.dict innerTuple.flatUnnamed) 0 (innerTuple.flatUnnamed.parse (.named sp) 0 [⟨[], 0, none⟩]).1 = _
    rw [h 0]
    rfl

/-- C70: `#[deluxe(transparent)] struct W(#[deluxe(map = |b| !b)] bool, #[deluxe(skip, default = true)] bool);` -/
def negated : StructDef Bool where
  shape := .unnamed
  fields := [{ plainField [] boolDict with ident := none, idents := [], transforms := [.map not] },
    { plainField [] boolDict with ident := none, idents := [], skip := some true, default := some true }]
  default := none
  transparent := some true
  allowUnknown := none
  andThens := []

/-- C70: it meets the conditions, and `W(true)` is built with `false` and `true`. -/
example : negated.Accepted ∧ negated.isTransparent = true ∧ (∀ f ∈ negated.fields, f.MapsOnly) ∧
    Wrapped negated none 0 true [false, true] := by
  refine ⟨⟨⟨?_, ?_⟩, fun _ => rfl, ?_⟩, rfl, ?_, rfl, ?_⟩
  · intro f hf hp
    simp only [negated, StructDef.data, List.mem_cons, List.not_mem_nil, or_false] at hf
    rcases hf with rfl | rfl
    · simp [plainField, Field.isParsable, Field.isContainer] at hp
    · exact .inl rfl
  · intro t ht; cases ht
  · intro _ f hf
    simp only [negated, List.mem_cons, List.not_mem_nil, or_false] at hf
    rcases hf with rfl | rfl <;> simp [plainField]
  · intro f hf t ht
    simp only [negated, List.mem_cons, List.not_mem_nil, or_false] at hf
    rcases hf with rfl | rfl
    · simp only [List.mem_cons, List.not_mem_nil, or_false] at ht
      exact ⟨_, ht⟩
    · simp [plainField] at ht
  · intro i f hf
    match i with
    | 0 => cases hf; exact ⟨fun _ => rfl, fun h => absurd rfl h⟩
    | 1 =>
      cases hf
      refine ⟨fun h => absurd h (by decide), fun _ => ⟨fun h => absurd h (by decide), fun _ x hx => ?_, fun _ h => by simp at h⟩⟩
      cases hx
      rfl
    | n + 2 => simp [negated] at hf

/-- `#[deluxe(transparent, and_then = ..)] struct W(());` with a function that refuses everything. -/
def refusing (e : SynErr) : StructDef Unit :=
  { newtype unitDict ⟨none, fun _ _ => M.panic⟩ with andThens := [fun _ => .error e] }

/-- C70 does not hold for messages if there is an `and_then`: in `w(x)` the field complains about `x`, the structure
about the value, because its functions are run before the rest of the parentheses is looked at. -/
theorem c70_message_violated [Env] (e : SynErr) (sp : Span) :
    (unitDict.named "w".toList sp ⟨[.group .paren [.ident "x".toList 3] 2 5], 9, none⟩).1 =
        .err (.new 3 (.unexpectedTree (.ident "x".toList 3))) ∧
      ((refusing e).dict.named "w".toList sp ⟨[.group .paren [.ident "x".toList 3] 2 5], 9, none⟩).1 = .err e :=
  ⟨rfl, rfl⟩

/-- `w()` is read by the field and refused by the structure. -/
example [Env] (e : SynErr) (sp : Span) :
    (unitDict.named "w".toList sp ⟨[.group .paren [] 2 5], 9, none⟩).1 = .ok () ∧
      ((refusing e).dict.named "w".toList sp ⟨[.group .paren [] 2 5], 9, none⟩).1 = .err e :=
  ⟨rfl, rfl⟩

end Deluxe
