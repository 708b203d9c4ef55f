import Verif.Lemmas.Moved
import Verif.Props.Containers
/-!
# C105: the order of the variants in a definition does not matter

Variants are found by their names, or by the names of the fields of a flattened one, so the order in which they are
declared should not matter for what can be written.  The theorems compare a definition with the one whose variants are
rearranged.  The messages are the same too, in some order, except that names are listed in the order of the definition
and that another name may be suggested.
-/
namespace Deluxe

variable {V : Type}

section
variable [Env] {e e' : EnumDef V} {idx : List Nat} {up : EnumVal V → EnumVal V}

/-- C105: flattened into a structure, or as the list of items, the rearranged enum gives the same variant with the same
values, or the same messages in some order, and leaves the same input. -/
theorem c105_flattened (h : VariantsMoved e e' idx up) (mode : Mode) (pre : Str) (validate : Bool) (l : List Stream) :
    Res.RelMsgs (fun x y => x = up y) (e.flatNamed.parse mode pre validate l).1
      (e'.flatNamed.parse mode pre validate l).1 ∧
    (e.flatNamed.parse mode pre validate l).2 = (e'.flatNamed.parse mode pre validate l).2 ∧
    ∀ n, n ∈ e.flatNamed.fieldNames ↔ n ∈ e'.flatNamed.fieldNames :=
  ⟨(h.flat .meta mode pre validate l).1, (h.flat .meta mode pre validate l).2, fun _ => h.fieldNames.mem_iff.symm⟩

/-- C105: the same in every form of an item, and for a missing one. -/
theorem c105_item (h : VariantsMoved e e' idx up) :
    e.dict.Rel (fun x y => x = up y) e'.dict ∧
      ∀ name sp, Res.RelMsgs (fun x y => x = up y) (e.dict.missing name sp) (e'.dict.missing name sp) := by
  have hi : ∀ mode b, M.Rel (fun x y => x = up y) (e.flatNamed.parse mode [] b) (e'.flatNamed.parse mode [] b) :=
    fun mode b l => ⟨(h.flat .meta mode [] b l).1.rel, (h.flat .meta mode [] b l).2⟩
  have hp : ∀ mode, M.Rel (fun x y => x = up y) (e.dict.parse mode) (e'.dict.parse mode) := fun mode s =>
    (hi _ _).single.delimited .brace s
  have hf : ∀ sp, Res.Rel (fun x y => x = up y) (e.dict.flag sp) (e'.dict.flag sp) := fun sp =>
    (hi _ _).single.parseEmpty sp
  refine ⟨⟨hp, fun mode => hi mode _, hf, fun _ sp => M.Rel.namedItem hp (fun mode => hi mode _) hf sp⟩, fun name sp => ?_⟩
  simp only [EnumDef.dict, Dict.mk', h.default]
  cases e'.default with
  | none => exact .err (.refl _)
  | some x => exact .ok rfl

variable {O : Type}

/-- C105: the same for the attributes of an object. -/
theorem c105_attributes (h : VariantsMoved e e' idx up) (attributes : List (List Str)) (ha : HasAttrs O)
    (container : O → V) (o : O) :
    Res.Rel (fun x y => x = up y) ((e.attrTarget attributes).parseAttributes ha container o)
        ((e'.attrTarget attributes).parseAttributes ha container o) ∧
      Res.Rel (fun x y => x = up y) ((e.attrTarget attributes).extractAttributes ha container o).1
        ((e'.attrTarget attributes).extractAttributes ha container o).1 ∧
      ((e.attrTarget attributes).extractAttributes ha container o).2 =
        ((e'.attrTarget attributes).extractAttributes ha container o).2 := by
  have key : ∀ obj toks, Res.Rel (fun x y => x = up y)
      (parseStructAttrTokens toks ((e.attrTarget attributes).func obj))
      (parseStructAttrTokens toks ((e'.attrTarget attributes).func obj)) := fun obj toks =>
    parseStructAttrTokens_rel (fun ps l => by
      simp only [AttrTarget.func, EnumDef.attrTarget, EnumDef.attrBody, h.acceptsAll]
      exact ⟨(h.flat _ _ [] _ l).1.rel, (h.flat _ _ [] _ l).2⟩) toks
  refine ⟨key _ _, ?_⟩
  unfold AttrTarget.extractAttributes
  cases ha.attrsMut o with
  | error e => exact ⟨.err, rfl⟩
  | ok x => exact ⟨key _ _, rfl⟩

end

/-! ## Definitions -/

section
variable {idx : List Nat}

/-- Of two containers neither says what lifetime or type it has. -/
def FreeContainers (vs : List VariantDecl) : Prop :=
  ∀ (i j : Nat) v w b c, i ≠ j → vs[i]? = some v → vs[j]? = some w → v.HasContainer b → w.HasContainer c →
    c.lifetime = none ∧ c.ty = none

theorem pairwise_select {α : Type} {R : α → α → Prop} {l : List α} (hp : idx.Perm (List.range l.length))
    (h : ∀ (i j : Nat) a b, i ≠ j → l[i]? = some a → l[j]? = some b → R a b) : (select idx l).Pairwise R := by
  have hlt : ∀ i ∈ idx, i < l.length := fun i hi => by simpa using hp.mem_iff.1 hi
  have hn : idx.Nodup := hp.nodup_iff.2 List.nodup_range
  rw [List.pairwise_iff_getElem]
  intro i j hi hj hij
  have h1 := List.getElem?_eq_getElem hi
  have h2 := List.getElem?_eq_getElem hj
  rw [select_get hlt] at h1 h2
  obtain ⟨i', hi', hi2⟩ := Option.bind_eq_some_iff.1 h1
  obtain ⟨j', hj', hj2⟩ := Option.bind_eq_some_iff.1 h2
  refine h i' j' _ _ (fun hc => ?_) hi2 hj2
  subst hc
  have := nodup_get hn hi' hj'
  omega

theorem pairwise_both {α : Type} {R : α → α → Prop} (hs : ∀ a b, R a b → R b a) {l : List α} (h : l.Pairwise R)
    (i j : Nat) (a b : α) (hij : i ≠ j) (hi : l[i]? = some a) (hj : l[j]? = some b) : R a b := by
  obtain ⟨hi', rfl⟩ := List.getElem?_eq_some_iff.1 hi
  obtain ⟨hj', rfl⟩ := List.getElem?_eq_some_iff.1 hj
  rcases Nat.lt_or_gt_of_ne hij with hl | hl
  · exact List.pairwise_iff_getElem.1 h i j hi' hj' hl
  · exact hs _ _ (List.pairwise_iff_getElem.1 h j i hj' hi' hl)

theorem enumChecked_select {vs : List VariantDecl} {b : Bool} (hp : idx.Perm (List.range vs.length))
    (hc : FreeContainers vs) (h : EnumChecked vs b) : EnumChecked (select idx vs) b := by
  have hperm := select_perm hp
  refine ⟨?_, ?_, fun v hv => h.flatNamed v (hperm.mem_iff.1 hv), ?_,
    fun v hv a w hw => h.flatNames v (hperm.mem_iff.1 hv) a w (hperm.mem_iff.1 hw),
    fun hb v hv => h.default hb v (hperm.mem_iff.1 hv)⟩
  · exact (hperm.flatMap_right _).nodup_iff.2 h.names
  · refine pairwise_select hp fun i j v w hij hi hj hv c hw => ?_
    obtain ⟨b, hb⟩ := Option.isSome_iff_exists.1 hv
    exact hc i j v w b c hij hi hj ((v.hasContainer_iff b).2 hb) ((w.hasContainer_iff c).2 hw)
  · exact pairwise_select hp (pairwise_both (fun v w hvw h1 h2 => (hvw h2 h1).symm) h.flatKeys)

variable [Env]

theorem enumBody_other {lib : SynLib} {d e : EnumIn} {r : EnumDecl} {ws : List VariantDecl} {l l' : List Stream}
    (hw : e.variants.map (VariantIn.read lib) = ws.map .ok)
    (hs : ∀ b, EnumChecked r.variants b → EnumChecked ws b)
    (h : enumBody lib d l = (.ok r, l')) : enumBody lib e l = (.ok { r with variants := ws }, l') := by
  have key : ∀ (acc : Acc EnumDefSt) (l : List Stream),
      (match readVariants lib d.variants acc.errs with
      | .ok (errs, vs) => ((enumDone vs acc.val errs).1.intoResult (enumDone vs acc.val errs).2, l)
      | .err e => (.err e, l)
      | .panic => (.panic, l) : Res EnumDecl × List Stream) = (.ok r, l') →
      (match readVariants lib e.variants acc.errs with
      | .ok (errs, vs) => ((enumDone vs acc.val errs).1.intoResult (enumDone vs acc.val errs).2, l)
      | .err e => (.err e, l)
      | .panic => (.panic, l) : Res EnumDecl × List Stream) = (.ok { r with variants := ws }, l') := by
    intro acc l h
    split at h
    · rename_i errs vs hr
      rw [Prod.mk.injEq, Errors.intoResult_ok_iff, enumDone_nil] at h
      obtain ⟨⟨⟨h1, h2⟩, rfl⟩, rfl⟩ := h
      have h0 := (readVariants_ok hr h1).1
      rw [readVariants_ok_of _ hw]
      simp only
      rw [Prod.mk.injEq, Errors.intoResult_ok_iff, enumDone_nil]
      exact ⟨⟨⟨h0, hs _ h2⟩, rfl⟩, rfl⟩
    · simp at h
    · simp at h
  unfold enumBody at h ⊢
  dsimp only at h ⊢
  split at h
  · simp at h
  · exact key _ _ h
  · rename_i e acc l _
    exact key ⟨acc.val, acc.errs.pushSyn e⟩ _ h

/-- C105: an accepted enum is also accepted with its variants in another order, and read in the same way, if at most
one container says what lifetime or type it has.  The full claim would be without this condition; it is violated, see
`c105_container_violated`. -/
theorem c105_accepted_partial {lib : SynLib} {d : EnumIn} {r : EnumDecl} (hr : d.read lib = .ok r)
    (hp : idx.Perm (List.range d.variants.length)) (hc : FreeContainers r.variants) :
    EnumIn.read lib ⟨select idx d.variants, d.attrs⟩ = .ok { r with variants := select idx r.variants } := by
  have hv := (EnumIn.read_ok hr).1
  have hlen : d.variants.length = r.variants.length := by simpa using congrArg List.length hv
  have hl : ∀ (d : EnumIn) (ps : List (Str × Span)) l, (enumBody lib d l).2.length = l.length :=
    fun d _ l => enumBody_length lib d l
  rw [EnumIn.read, c19_attr_tokens _ _ (hl d)] at hr
  obtain ⟨ss, ss', h1, h2⟩ := hr
  rw [EnumIn.read, c19_attr_tokens _ _ (hl _)]
  refine ⟨ss, ss', h1, enumBody_other ?_ (fun b => enumChecked_select (hlen ▸ hp) hc) h2⟩
  rw [← select_map, hv, select_map]

/-- The meaning of the Rust code in an enum, and in the same enum with rearranged variants: `up` gives back the
variant that was meant. -/
structure MeaningMoved (idx : List Nat) (sem sem' : EnumSem V) (up : EnumVal V → EnumVal V) : Prop where
  field : ∀ j i : Nat, idx[j]? = some i → sem'.field j = sem.field i
  pos : ∀ (j i : Nat) xs, idx[j]? = some i → up (j, xs) = (i, xs)
  default : ∀ x, sem.default x = up (sem'.default x)
  andThen : ∀ f x, sem.andThen f (up x) = (sem'.andThen f x).map up

/-- C105, from the definition: the theorems above apply to an accepted enum and the rearranged one. -/
theorem c105_definition {lib : SynLib} {d : EnumIn} {r : EnumDecl} (hr : d.read lib = .ok r)
    (hp : idx.Perm (List.range r.variants.length)) {sem sem' : EnumSem V} {up : EnumVal V → EnumVal V}
    (hm : MeaningMoved idx sem sem' up) :
    VariantsMoved (r.toDef sem) (({ r with variants := select idx r.variants } : EnumDecl).toDef sem') idx up := by
  have hlt : ∀ i ∈ idx, i < r.variants.length := fun i hi => by simpa using hp.mem_iff.1 hi
  obtain ⟨hk, hn⟩ := c68_distinct hr sem
  refine ⟨?_, ?_, hm.pos, rfl, ?_, ?_, ?_, fun i j v w k hi hj hv hw => hn i j v w k hi hj hv.1 hw.1, hk⟩
  · simpa [EnumDecl.toDef] using hp
  · apply List.ext_getElem?
    intro j
    rw [select_get (by simpa [EnumDecl.toDef] using hlt)]
    simp only [EnumDecl.toDef, List.getElem?_map, List.getElem?_zipIdx, select_get hlt]
    cases hj : idx[j]? with
    | none => rfl
    | some i =>
      simp only [Option.bind_some]
      cases r.variants[i]? with
      | none => rfl
      | some v => simp [hm.field j i hj]
  · simp only [EnumDecl.toDef, Option.map_map]
    congr 1
    funext x
    exact hm.default x
  · simp only [EnumDecl.toDef, List.length_map]
  · intro n f f' h1 h2 x
    simp only [EnumDecl.toDef, List.getElem?_map] at h1 h2
    obtain ⟨t, ht, rfl⟩ := Option.map_eq_some_iff.1 h1
    rw [ht] at h2
    cases h2
    exact hm.andThen t x

end

/-! ## Where it is not so, and examples -/

section
variable [Env]

/-- `A { #[deluxe(container(ty = C))] c: C }` -/
def typedIn : VariantIn := ⟨(txt "a", 10), 10, .named, [⟨some (txt "c", 11), [deluxeList [.ident (txt "container") 2,
  .group .paren [.ident (txt "ty") 3, .punct '=' false 4, .ident (txt "C") 5] 6 7]]⟩], []⟩

/-- `B { #[deluxe(container)] c: C }` -/
def untypedIn : VariantIn := ⟨(txt "b", 20), 20, .named, [containerIn], []⟩

/-- C105 is violated for containers: `enum E { A { #[deluxe(container(ty = C))] c: C }, B { #[deluxe(container)] c: C } }`
is accepted, but not with the variants in the other order: only the first container can say what type it has. -/
theorem c105_container_violated : (∃ r, EnumIn.read demoLib ⟨[typedIn, untypedIn], []⟩ = .ok r) ∧
    ∃ x, EnumIn.read demoLib ⟨[untypedIn, typedIn], []⟩ = .err x ∧
      x.toList.map (·.text) = [.custom (txt "only the first `container` field can contain a `type` parameter")] :=
  ⟨⟨_, rfl⟩, _, rfl, rfl⟩

/-- `#[deluxe(flatten)] B { x: bool }` -/
def flatIn : VariantIn := ⟨(txt "b", 20), 20, .named, [plainIn "x" 21], [deluxeList [.ident (txt "flatten") 4]]⟩

/-- C105: the messages are not the same: without a variant, `enum E { A, #[deluxe(flatten)] B { x: bool } }` and
`enum E { #[deluxe(flatten)] B { x: bool }, A }` list the names in different orders. -/
theorem c105_listed_violated : ∃ r q x y, EnumIn.read demoLib ⟨[unitIn "a" 9, flatIn], []⟩ = .ok r ∧
    EnumIn.read demoLib ⟨[flatIn, unitIn "a" 9], []⟩ = .ok q ∧
    (r.toDef boolEnumSem).dict.flag 30 = .err x ∧ (q.toDef boolEnumSem).dict.flag 30 = .err y ∧
    x.toList = [⟨30, .expectedOneOf [[[txt "`a`"]], [[txt "`x`"]]]⟩] ∧
    y.toList = [⟨30, .expectedOneOf [[[txt "`x`"]], [[txt "`a`"]]]⟩] :=
  ⟨_, _, _, _, rfl, rfl, rfl, rfl, rfl, rfl⟩

/-- Exchanges two positions. -/
def swapVal (x : EnumVal Bool) : EnumVal Bool := if x.1 = 0 then (1, x.2) else if x.1 = 1 then (0, x.2) else x

/-- C105: the theorems apply to this enum, which is accepted, with its two variants exchanged. -/
example : ∃ r, EnumIn.read demoLib ⟨[unitIn "a" 9, flatIn], []⟩ = .ok r ∧ FreeContainers r.variants ∧
    EnumIn.read demoLib ⟨select [1, 0] [unitIn "a" 9, flatIn], []⟩ = .ok { r with variants := select [1, 0] r.variants } ∧
    VariantsMoved (r.toDef boolEnumSem) (({ r with variants := select [1, 0] r.variants } : EnumDecl).toDef
      { boolEnumSem with default := fun _ => (1, []) }) [1, 0] swapVal := by
  have hr : ∃ r, EnumIn.read demoLib ⟨[unitIn "a" 9, flatIn], []⟩ = .ok r ∧ r.variants.length = 2 ∧
      r.variants.map (·.container) = [none, none] := ⟨_, rfl, rfl, rfl⟩
  obtain ⟨r, hr, hlen, hc⟩ := hr
  have hp : [1, 0].Perm (List.range 2) := List.Perm.swap 0 1 []
  have hf : FreeContainers r.variants := by
    intro i j v w b c _ hi _ hv _
    have hm := congrArg (·[i]?) hc
    simp only [List.getElem?_map, hi, Option.map_some, (v.hasContainer_iff b).1 hv] at hm
    match i, hm with
    | 0, hm => cases hm
    | 1, hm => cases hm
    | _ + 2, hm => cases hm
  refine ⟨r, hr, hf, c105_accepted_partial hr hp hf, c105_definition hr (hlen ▸ hp) ⟨?_, ?_, fun _ => rfl, fun _ _ => rfl⟩⟩
  · intro j i _
    rfl
  · intro j i xs h
    match j, h with
    | 0, h => cases h; rfl
    | 1, h => cases h; rfl
    | _ + 2, h => cases h

end

end Deluxe
