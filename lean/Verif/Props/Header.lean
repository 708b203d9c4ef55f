import Verif.Model.Header
/-!
# C72: what the derived attribute implementations are for
-/
namespace Deluxe

/-! ## Fresh names -/

theorem fresh_form (taken : List Str) (n : Nat) (name : Str) :
    ∃ k, fresh taken n name = name ++ List.replicate k '_' := by
  induction n generalizing name with
  | zero => exact ⟨0, by simp [fresh]⟩
  | succ n ih =>
    unfold fresh
    split
    · obtain ⟨k, hk⟩ := ih (name ++ ['_'])
      exact ⟨k + 1, by rw [hk, List.append_assoc]; rfl⟩
    · exact ⟨0, by simp⟩

theorem length_le_sum {taken : List Str} {x : Str} (h : x ∈ taken) : x.length ≤ (taken.map List.length).sum := by
  induction taken with
  | nil => simp at h
  | cons y ys ih =>
    simp only [List.map_cons, List.sum_cons]
    rcases List.mem_cons.1 h with rfl | h
    · omega
    · have := ih h; omega

theorem fresh_not_mem (taken : List Str) (n : Nat) (name : Str) (h : (taken.map List.length).sum < n + name.length) :
    fresh taken n name ∉ taken := by
  induction n generalizing name with
  | zero =>
    intro hm
    have := length_le_sum hm
    simp only [fresh] at this
    omega
  | succ n ih =>
    unfold fresh
    split
    · exact ih _ (by simp; omega)
    · rename_i hc
      intro hm
      exact hc (List.contains_iff_mem.2 hm)

/-- The loop that makes a name unique ends with one that is not taken. -/
theorem fresh_not_taken (taken : List Str) (name : Str) : fresh taken (freshFuel taken) name ∉ taken :=
  fresh_not_mem taken _ name (by unfold freshFuel; omega)

/-! ## What a container field holds -/

/-- The type of a field that holds an object of type `obj`: the object, a reference, or an `Option` of one of these.
`lifetime` is that of the reference. -/
inductive HoldsObject : Ty → (isRef : Bool) → (lifetime : Option Str) → (obj : Ty) → Prop
  | owned {t} : (∀ l u, t ≠ .ref l u) → (∀ lead pre u, t ≠ .path false lead pre "Option".toList (some [.type u])) →
      HoldsObject t false none t
  | ref {l t} : HoldsObject (.ref l t) true l t
  | option {lead pre t} : (∀ l u, t ≠ .ref l u) →
      HoldsObject (.path false lead pre "Option".toList (some [.type t])) false none t
  | optionRef {lead pre l t} : HoldsObject (.path false lead pre "Option".toList (some [.type (.ref l t)])) true l t

theorem holdsObject_strip {t obj : Ty} {isRef : Bool} {l : Option Str} (h : HoldsObject t isRef l obj) (given : Option Str) :
    stripRef given (stripOption t) = (given.or l, isRef, obj) := by
  cases h with
  | owned h1 h2 =>
    have : stripOption t = t := by
      unfold stripOption
      split
      · rename_i lead pre last u
        split
        · rename_i hl
          exact absurd rfl (by rw [hl] at h2; exact h2 _ _ _)
        · rfl
      · rfl
    rw [this]
    unfold stripRef
    split
    · exact absurd rfl (h1 _ _)
    · simp
  | ref => rfl
  | option h1 =>
    simp only [stripOption, if_true]
    unfold stripRef
    split
    · exact absurd rfl (h1 _ _)
    · simp
  | optionRef => simp [stripOption, stripRef]

/-- Every type is of one of these forms. -/
theorem holdsObject_total (t : Ty) : ∃ isRef l obj, HoldsObject t isRef l obj := by
  by_cases h : ∃ lead pre u, t = .path false lead pre "Option".toList (some [.type u])
  · obtain ⟨lead, pre, u, rfl⟩ := h
    by_cases h' : ∃ l v, u = .ref l v
    · obtain ⟨l, v, rfl⟩ := h'
      exact ⟨_, _, _, .optionRef⟩
    · exact ⟨_, _, _, .option fun l v hl => h' ⟨l, v, hl⟩⟩
  · by_cases h' : ∃ l v, t = .ref l v
    · obtain ⟨l, v, rfl⟩ := h'
      exact ⟨_, _, _, .ref⟩
    · exact ⟨_, _, _, .owned (fun l v hl => h' ⟨l, v, hl⟩) fun lead pre u hu => h ⟨lead, pre, u, hu⟩⟩

/-- The first generic argument of the last segment of a path is this lifetime. -/
inductive FirstArg : Ty → Str → Prop
  | intro {q lead pre last l args} : FirstArg (.path q lead pre last (some (.lifetime l :: args))) l

theorem lifetimeArg_some {t : Ty} {x : Str} : lifetimeArg t = some x ↔ FirstArg t x := by
  constructor
  · intro h
    unfold lifetimeArg at h
    split at h
    · cases h
      exact .intro
    · cases h
  · intro h
    cases h
    rfl

theorem mem_typeParams {ps : List GParam} {x : Str} : x ∈ typeParams ps ↔ .type x ∈ ps := by
  unfold typeParams
  rw [List.mem_filterMap]
  constructor
  · rintro ⟨p, hp, h⟩
    cases p <;> simp at h
    rw [← h]
    exact hp
  · intro h
    exact ⟨_, h, rfl⟩

theorem mem_lifetimeParams {ps : List GParam} {x : Str} : x ∈ lifetimeParams ps ↔ .lifetime x ∈ ps := by
  unfold lifetimeParams
  rw [List.mem_filterMap]
  constructor
  · rintro ⟨p, hp, h⟩
    cases p <;> simp at h
    rw [← h]
    exact hp
  · intro h
    exact ⟨_, h, rfl⟩

/-! ## The head -/

/-- C72: with a container field and no `ty`, the implementation is for the type of the object that the field holds. -/
theorem c72_object {t obj : Ty} {isRef : Bool} {l : Option Str} (h : HoldsObject t isRef l obj) (mode : HeadMode)
    (params : List GParam) (given : Option Str) : (head mode params (some (t, given, none))).object = obj := by
  simp only [head, holdsObject_strip h]
  split <;> rfl

/-- C72: `ty` overrides it. -/
theorem c72_given (t g : Ty) (mode : HeadMode) (params : List GParam) (given : Option Str) :
    (head mode params (some (t, given, some g))).object = g := by
  simp only [head]
  split <;> rfl

/-- C72: the object type has to be `Clone` exactly if the field does not hold a reference. -/
theorem c72_clone {t obj : Ty} {isRef : Bool} {l : Option Str} (h : HoldsObject t isRef l obj) (mode : HeadMode)
    (params : List GParam) (given : Option Str) (g : Option Ty) (u : Ty) :
    .clone u ∈ (head mode params (some (t, given, g))).bounds ↔
      isRef = false ∧ u = (head mode params (some (t, given, g))).object := by
  simp only [head, holdsObject_strip h]
  cases g <;> cases isRef <;> (split <;> simp) <;> split <;> simp

theorem singleIdent_mem {t : Ty} {ps : List GParam} :
    ((singleIdent t).map fun x => (typeParams ps).contains x).getD false = true ↔ ∃ x, .type x ∈ ps ∧ t = Ty.ofIdent x := by
  constructor
  · intro h
    unfold singleIdent at h
    split at h
    · rename_i x
      exact ⟨x, mem_typeParams.1 (List.contains_iff_mem.1 h), rfl⟩
    · simp at h
  · rintro ⟨x, hx, rfl⟩
    exact List.contains_iff_mem.2 (mem_typeParams.2 hx)

theorem head_bounds_given {t obj : Ty} {isRef : Bool} {l : Option Str} (h : HoldsObject t isRef l obj) (mode : HeadMode)
    (params : List GParam) (given : Option Str) (g : Ty) :
    (head mode params (some (t, given, some g))).bounds = if isRef then [] else [.clone g] := by
  simp only [head, holdsObject_strip h]
  cases isRef <;> split <;> rfl

theorem head_bounds {t obj : Ty} {isRef : Bool} {l : Option Str} (h : HoldsObject t isRef l obj) (mode : HeadMode)
    (params : List GParam) (given : Option Str) :
    (head mode params (some (t, given, none))).bounds = (if isRef then [] else [.clone obj]) ++
      if ((singleIdent obj).map fun x => (typeParams params).contains x).getD false then [.hasAttributes obj] else [] := by
  simp only [head, holdsObject_strip h]
  cases isRef <;> split <;> rfl

/-- C72: with a container field, `HasAttributes` is demanded exactly of a type parameter that the field holds, and only
without `ty`. -/
theorem c72_has_attributes {t obj : Ty} {isRef : Bool} {l : Option Str} (h : HoldsObject t isRef l obj) (mode : HeadMode)
    (params : List GParam) (given : Option Str) (g : Option Ty) (u : Ty) :
    .hasAttributes u ∈ (head mode params (some (t, given, g))).bounds ↔
      g = none ∧ u = obj ∧ ∃ x, .type x ∈ params ∧ obj = Ty.ofIdent x := by
  cases g with
  | some g =>
    rw [head_bounds_given h]
    cases isRef <;> simp
  | none =>
    rw [head_bounds h, ← singleIdent_mem]
    cases isRef <;> cases ((singleIdent obj).map fun x => (typeParams params).contains x).getD false <;> simp

/-- C72: the lifetime is the given one, else that of the reference, else the first argument of the object type. -/
theorem c72_lifetime {t obj : Ty} {isRef : Bool} {l : Option Str} (h : HoldsObject t isRef l obj) (mode : HeadMode)
    (params : List GParam) (given : Option Str) (g : Option Ty) (x : Str)
    (hx : given = some x ∨ (given = none ∧ l = some x) ∨ (given = none ∧ l = none ∧ FirstArg obj x)) :
    (head mode params (some (t, given, g))).lifetime = some x ∧ (head mode params (some (t, given, g))).params = params := by
  have hl : (given.or l).or (lifetimeArg obj) = some x := by
    rcases hx with rfl | ⟨rfl, rfl⟩ | ⟨rfl, rfl, hf⟩
    · rfl
    · rfl
    · exact lifetimeArg_some.2 hf
  simp only [head, holdsObject_strip h, hl]
  cases g <;> simp

/-- C72: otherwise `ParseAttributes` gets a lifetime parameter that is not one of those declared, and
`ExtractAttributes`, which has no lifetime, gets none. -/
theorem c72_new_lifetime {t obj : Ty} {isRef : Bool} (h : HoldsObject t isRef none obj) (hf : ∀ x, ¬FirstArg obj x)
    (params : List GParam) (g : Option Ty) :
    (∃ x, .lifetime x ∉ params ∧ (head .parse params (some (t, none, g))).lifetime = some x ∧
      (head .parse params (some (t, none, g))).params = .lifetime x :: params) ∧
    (head .extract params (some (t, none, g))).lifetime = none ∧
      (head .extract params (some (t, none, g))).params = params := by
  have hl : lifetimeArg obj = none := by
    cases hx : lifetimeArg obj with
    | none => rfl
    | some x => exact absurd (lifetimeArg_some.1 hx) (hf x)
  refine ⟨⟨fresh (lifetimeParams params) (freshFuel (lifetimeParams params)) ['t'], ?_, ?_⟩, ?_⟩
  · intro hm
    exact fresh_not_taken _ _ (mem_lifetimeParams.2 hm)
  · simp only [head, holdsObject_strip h, hl]
    cases g <;> simp
  · simp only [head, holdsObject_strip h, hl]
    cases g <;> simp

/-- C72: without a container field the implementation is for every object type with `HasAttributes`: for a new type
parameter, which is not one of those declared.  No `Clone` is demanded. -/
theorem c72_generic (mode : HeadMode) (params : List GParam) :
    ∃ x, .type x ∉ params ∧ (head mode params none).object = Ty.ofIdent x ∧
      (head mode params none).bounds = [.hasAttributes (Ty.ofIdent x)] ∧
      (mode = .extract → (head mode params none).params = .type x :: params ∧ (head mode params none).lifetime = none) ∧
      (mode = .parse → ∃ l, .lifetime l ∉ params ∧ (head mode params none).lifetime = some l ∧
        (head mode params none).params = .lifetime l :: .type x :: params) := by
  refine ⟨fresh (typeParams params) (freshFuel (typeParams params)) ['T'], ?_, ?_, ?_, ?_, ?_⟩
  · intro hm
    exact fresh_not_taken _ _ (mem_typeParams.2 hm)
  · simp only [head]
    split <;> rfl
  · simp only [head]
    split <;> rfl
  · rintro rfl
    simp [head]
  · rintro rfl
    refine ⟨fresh (lifetimeParams params) (freshFuel (lifetimeParams params)) ['t'], ?_, ?_⟩
    · intro hm
      exact fresh_not_taken _ _ (mem_lifetimeParams.2 hm)
    · exact ⟨rfl, rfl⟩

/-- C72: the declared parameters are all kept, in order. -/
theorem c72_params (mode : HeadMode) (params : List GParam) (c : Option (Ty × Option Str × Option Ty)) :
    params <:+ (head mode params c).params := by
  have hc (l : GParam) (t : GParam) : params <:+ l :: t :: params :=
    List.IsSuffix.trans (List.suffix_cons t params) (List.suffix_cons l _)
  rcases c with _ | ⟨t, given, _ | g⟩ <;> simp only [head] <;> split <;>
    first
    | exact List.suffix_rfl
    | exact List.suffix_cons _ _
    | exact hc _ _

/-- C72: `ParseAttributes` always has a lifetime. -/
theorem c72_parse_lifetime (params : List GParam) (c : Option (Ty × Option Str × Option Ty)) :
    ((head .parse params c).lifetime).isSome := by
  rcases c with _ | ⟨t, given, _ | g⟩ <;> simp only [head] <;> split
  case isTrue => rfl
  case isTrue => rfl
  case isTrue => rfl
  all_goals
    rename_i hn
    simp only [true_and] at hn
    first
    | exact absurd trivial hn
    | exact Option.isSome_iff_ne_none.2 hn

/-! ## DeclaresName that the new type parameter takes -/

/-- The name `x` is one of the generic parameters; types and constants share their names. -/
def DeclaresName (ps : List GParam) (x : Str) : Prop := .type x ∈ ps ∨ .const x ∈ ps

/-- C72: a type that the definition mentions and that is not one of its parameters is not captured by the new
parameter, if its name is not `T` followed by underscores.

Missing: with these names it may be, see `c72_capture_violated`. -/
theorem c72_capture_partial (mode : HeadMode) (params : List GParam) (c : Option (Ty × Option Str × Option Ty)) (x : Str)
    (hx : ¬DeclaresName params x) (hT : ∀ k, x ≠ 'T' :: List.replicate k '_') : ¬DeclaresName (head mode params c).params x := by
  have key : ∀ (l : Option Str), ¬DeclaresName (match l with | some l => .lifetime l :: params | none => params) x := by
    intro l hn
    cases l with
    | none => exact hx hn
    | some l =>
      rcases hn with h | h
      · exact hx (.inl (by simpa using h))
      · exact hx (.inr (by simpa using h))
  have key' : ∀ k, ¬ x = ['T'] ++ List.replicate k '_' := hT
  rcases c with _ | ⟨t, given, _ | g⟩
  · obtain ⟨k, hk⟩ := fresh_form (typeParams params) (freshFuel (typeParams params)) ['T']
    have hne := key' k
    rw [← hk] at hne
    intro hn
    simp only [head] at hn
    split at hn
    · rcases hn with h | h
      · simp only [List.mem_cons, GParam.type.injEq, reduceCtorEq, false_or] at h
        exact h.elim hne fun h => hx (.inl h)
      · exact hx (.inr (by simpa using h))
    · rcases hn with h | h
      · simp only [List.mem_cons, GParam.type.injEq] at h
        exact h.elim hne fun h => hx (.inl h)
      · exact hx (.inr (by simpa using h))
  · simp only [head]
    split
    · exact key (some _)
    · exact key none
  · simp only [head]
    split
    · exact key (some _)
    · exact key none

/-- C72: with a container field nothing is captured. -/
theorem c72_container_captures_nothing (mode : HeadMode) (params : List GParam) (t : Ty) (given : Option Str)
    (g : Option Ty) (x : Str) (hx : ¬DeclaresName params x) : ¬DeclaresName (head mode params (some (t, given, g))).params x := by
  have key : ∀ l, ¬DeclaresName (.lifetime l :: params) x := by
    rintro l (h | h)
    · exact hx (.inl (by simpa using h))
    · exact hx (.inr (by simpa using h))
  cases g <;> simp only [head] <;> split <;> first | exact key _ | exact hx

/-- The code violates: a structure without a container field that is called `T`, or that has a field of a type called
`T`.  In the generated implementation this name is the object type. -/
theorem c72_capture_violated : ∃ (mode : HeadMode) (params : List GParam) (x : Str),
    ¬DeclaresName params x ∧ DeclaresName (head mode params none).params x ∧ (head mode params none).object = Ty.ofIdent x :=
  ⟨.extract, [], ['T'], by simp [DeclaresName], .inl (by simp [head, fresh, freshFuel, typeParams]), rfl⟩

/-- The code violates: a constant parameter called `T` is declared again. -/
theorem c72_const_violated : ∃ (mode : HeadMode) (params : List GParam) (x : Str),
    params.Nodup ∧ .type x ∉ params ∧ .const x ∈ params ∧ .type x ∈ (head mode params none).params ∧
      .const x ∈ (head mode params none).params :=
  ⟨.extract, [.const ['T']], ['T'], by decide, by decide, by decide, by decide, by decide⟩

/-- C72: each name is declared once, if it was and no constant parameter is called `T` with underscores.

Missing: constant parameters with such a name, see `c72_const_violated`. -/
theorem c72_distinct_partial (mode : HeadMode) (params : List GParam) (c : Option (Ty × Option Str × Option Ty))
    (hn : params.Nodup) (hd : ∀ x, .type x ∈ params → .const x ∉ params)
    (hT : ∀ k, .const ('T' :: List.replicate k '_') ∉ params) :
    (head mode params c).params.Nodup ∧ ∀ x, .type x ∈ (head mode params c).params → .const x ∉ (head mode params c).params := by
  have hlt (ps : List GParam) : GParam.lifetime (fresh (lifetimeParams ps) (freshFuel (lifetimeParams ps)) ['t']) ∉ ps :=
    fun hm => fresh_not_taken _ _ (mem_lifetimeParams.2 hm)
  have hty (ps : List GParam) : GParam.type (fresh (typeParams ps) (freshFuel (typeParams ps)) ['T']) ∉ ps :=
    fun hm => fresh_not_taken _ _ (mem_typeParams.2 hm)
  have hadd {ps : List GParam} {l : Str} (h1 : ps.Nodup) (h2 : ∀ x, .type x ∈ ps → .const x ∉ ps) (hl : .lifetime l ∉ ps) :
      (GParam.lifetime l :: ps).Nodup ∧ ∀ x, .type x ∈ (GParam.lifetime l :: ps) → .const x ∉ (GParam.lifetime l :: ps) := by
    refine ⟨List.nodup_cons.2 ⟨hl, h1⟩, fun x hx hc => h2 x (by simpa using hx) (by simpa using hc)⟩
  rcases c with _ | ⟨t, given, _ | g⟩
  · obtain ⟨k, hk⟩ := fresh_form (typeParams params) (freshFuel (typeParams params)) ['T']
    have h1 : (GParam.type (fresh (typeParams params) (freshFuel (typeParams params)) ['T']) :: params).Nodup :=
      List.nodup_cons.2 ⟨hty _, hn⟩
    have h2 : ∀ x, .type x ∈ (GParam.type (fresh (typeParams params) (freshFuel (typeParams params)) ['T']) :: params) →
        .const x ∉ (GParam.type (fresh (typeParams params) (freshFuel (typeParams params)) ['T']) :: params) := by
      intro x hx hc
      simp only [List.mem_cons, GParam.type.injEq, reduceCtorEq, false_or] at hx hc
      rcases hx with rfl | hx
      · rw [hk] at hc
        exact hT k hc
      · exact hd x hx hc
    simp only [head]
    split
    · exact hadd h1 h2 (hlt _)
    · exact ⟨h1, h2⟩
  · simp only [head]
    split
    · exact hadd hn hd (hlt _)
    · exact ⟨hn, hd⟩
  · simp only [head]
    split
    · exact hadd hn hd (hlt _)
    · exact ⟨hn, hd⟩

/-! ## Which field is the container -/

/-- C72: the container field is the first one with the attribute `container`, if no field has `container = false`.

Missing: fields with `container = false`, see `c72_field_violated`. -/
theorem c72_field_partial (fields : List HeadField) (hf : ∀ f ∈ fields, ∀ c, f.container = some c → c.1 = true)
    (t : Ty) (l : Option Str) (g : Option Ty) :
    containerOf fields = some (t, l, g) ↔
      ∃ pre post, fields = pre ++ ⟨t, some (true, l, g)⟩ :: post ∧ ∀ f ∈ pre, f.container = none := by
  unfold containerOf
  rw [List.findSome?_eq_some_iff]
  constructor
  · rintro ⟨pre, ⟨t', c⟩, post, rfl, h, hp⟩
    cases c with
    | none => simp at h
    | some c =>
      obtain ⟨b, l', g'⟩ := c
      have hb : b = true := hf ⟨t', some (b, l', g')⟩ (by simp) _ rfl
      simp only [Option.map_some, Option.some.injEq, Prod.mk.injEq] at h
      obtain ⟨rfl, rfl, rfl⟩ := h
      subst hb
      exact ⟨pre, post, rfl, fun f hf => by simpa using hp f hf⟩
  · rintro ⟨pre, post, rfl, hp⟩
    exact ⟨pre, _, post, rfl, rfl, fun f hf => by simp [hp f hf]⟩

/-- The code violates: with `container = false` the implementation is still only for the type of this field. -/
theorem c72_field_violated : ∃ (t u : Ty) (fields : List HeadField),
    (∀ f ∈ fields, ∀ c, f.container = some c → c.1 = false ∨ f.ty = u) ∧ t ≠ u ∧
    (head .extract [] (containerOf fields)).object = t :=
  ⟨Ty.ofIdent "ItemStruct".toList, Ty.ofIdent "ItemEnum".toList,
    [⟨Ty.ofIdent "ItemStruct".toList, some (false, none, none)⟩, ⟨Ty.ofIdent "ItemEnum".toList, some (true, none, none)⟩],
    by simp, by simp [Ty.ofIdent], rfl⟩

/-! ## Examples -/

/-- `Option<&'a syn::Field>` -/
def optionRefTy : Ty :=
  .path false false [] "Option".toList (some [.type (.ref (some ['a']) (.path false false [['s', 'y', 'n']] "Field".toList none))])

example : HoldsObject optionRefTy true (some ['a']) (.path false false [['s', 'y', 'n']] "Field".toList none) := .optionRef

example : (head .parse [.lifetime ['a'], .type ['T']] (some (optionRefTy, none, none))).lifetime = some ['a'] := rfl

-- a type parameter held by value: cloned, with attributes, and a new lifetime
example : head .parse [.lifetime ['t'], .type ['T']] (some (Ty.ofIdent ['T'], none, none)) =
    ⟨[.lifetime ['t', '_'], .lifetime ['t'], .type ['T']], some ['t', '_'], Ty.ofIdent ['T'],
      [.clone (Ty.ofIdent ['T']), .hasAttributes (Ty.ofIdent ['T'])]⟩ := rfl

example : HoldsObject (Ty.ofIdent ['T']) false none (Ty.ofIdent ['T']) := by
  refine .owned ?_ ?_ <;> simp [Ty.ofIdent]

-- `T` and `T_` are taken
example : head .extract [.type ['T', '_'], .type ['T']] none =
    ⟨[.type ['T', '_', '_'], .type ['T', '_'], .type ['T']], none, Ty.ofIdent ['T', '_', '_'],
      [.hasAttributes (Ty.ofIdent ['T', '_', '_'])]⟩ := rfl

example : FirstArg (.path false false [] ['X'] (some [.lifetime ['b']])) ['b'] := .intro

end Deluxe
