import Verif.Lemmas.StructDef
import Verif.Props.Fixed
import Verif.Props.Progress
/-!
# C30 and C41: derived structures of every shape, and derived tuple structures

`d.dict` is the `ParseMetaItem` implementation derived for the structure `d`, and
`unnamedFlat d.data mode index` its parser for a list of items if it is a tuple structure.
-/
namespace Deluxe

variable {V : Type}

section
variable [Env]

/-! ## C30 -/

/-- C30: the parsers derived for a structure of any shape, transparent or not, end on every input with a
value or an error and never panic; they only move the streams forward. -/
theorem c30_struct (d : StructDef V) (ha : d.Accepted) (hg : d.FieldsFine) :
    (∀ m, Forward (d.dict.parse m)) ∧ (∀ m, ForwardL (d.dict.inline m)) ∧
    (∀ sp, d.dict.flag sp ≠ .panic) ∧ (∀ n sp, Forward (d.dict.named n sp)) ∧
    (∀ n sp, d.dict.missing n sp ≠ .panic) :=
  have g := d.dict_good ha hg
  ⟨fun m => (g.parse m).forward, fun m => (g.inline m).forwardL, g.flag,
    fun n sp => (g.named n sp).forward, g.missing⟩

/-- So the derived type is one that further types of the library may contain (C55). -/
theorem c30_provided (d : StructDef V) (ha : d.Accepted) (hg : d.FieldsFine) : Provided d.dict :=
  have h := c30_struct d ha hg
  .user h.1 h.2.1 h.2.2.1 h.2.2.2.1 h.2.2.2.2

/-- C30 for the parsers used if the structure is flattened into another one. -/
theorem c30_flattened (d : StructDef V) (ha : d.Accepted) (ht : d.isTransparent = false)
    (hg : d.FieldsFine) (m : Mode) (pre : Str) (validate : Bool) (i : Nat) :
    (d.shape = .named → ForwardL (d.flatNamed.parse m pre validate)) ∧
    (d.shape ≠ .unit → ForwardL (d.flatUnnamed.parse m i)) :=
  ⟨fun hs => (d.flatNamed_good ha ht hs hg m pre validate).forwardL,
    fun hs => (d.flatUnnamed_good ha ht hs hg m i).forwardL⟩

/-! ## C41 -/

omit [Env] in
theorem tupleItem_sound {d : Fields V} (hn : NoFlat d.fields) :
    PosSound (fun i => recover (tupleItem d.fields i)) (d.fields.countP (·.isParsable))
      (TupleSeg d.fields) := by
  intro v rest sc i b hi h1 h2 h3 u
  rcases h3 with ⟨f, k, h4, h5⟩ | ⟨h4, _⟩
  · have : tupleItem d.fields i = f.item.parse .unnamed := by
      rw [tupleItem, (nthArm_some hn.noAppendRest).2 h4]
    simp only [this]
    exact recover_segSound _ v rest sc b h1 h2 h5 u
  · simp only at h4; omega

/-- C41: a tuple structure of plain fields on comma separated items.  It is parsed exactly if every item
parses and every field has a value, which for the field number `j` among the parsed ones is that of item
number `j` if there is one; otherwise it comes from the default of the field, from its type or from the
struct default.  Items after the last field are left alone. -/
theorem c41_positions (d : Fields V) (ha : Accepted d) (ht : d.transparent = false)
    (hn : NoFlat d.fields) (hm : ∀ f ∈ d.fields, ∀ n sp, f.item.missing n sp ≠ .panic)
    (hpos : 0 < d.fields.countP (·.isParsable)) (mode : Mode) (index : Nat) (l : List Stream)
    (bs : List (Nat × Except SynErr V)) (h : ItemsAll (TupleSeg d.fields) l bs) (hnum : Numbered 0 bs)
    (xs : List (Except SynErr V)) (hxs : xs = (bs.map (·.2)).take (d.fields.countP (·.isParsable))) :
    ∃ r l', unnamedFlat d mode index l = (r, l') ∧
      (bs.length ≤ d.fields.countP (·.isParsable) → ∀ s ∈ l', AtEnd s.toks) ∧
      ∀ vs, r = .ok vs ↔ errMsgs xs = [] ∧ vs.length = d.fields.length ∧
        ∀ (k : Nat) f, d.fields[k]? = some f → ∃ v, vs[k]? = some v ∧
          PosHolds d index (mode.toFullSpan l') xs f k v := by
  obtain ⟨rs, l', h1, h2, h3⟩ := h.posReads (tupleItem_sound hn) 0 (Nat.zero_le _) hnum
  simp only [Nat.zero_add, Nat.sub_zero] at h1 h2 h3
  rw [← hxs] at h2
  refine ⟨(unnamedFlat d mode index l).1, l', ?_, h3, fun vs => ?_⟩
  · rw [← (unnamedFlat_ok d ha ht hn hm hpos mode index h1 []).1]
  · rw [(unnamedFlat_ok d ha ht hn hm hpos mode index h1 vs).2, h2]
    simp

/-- C41, the messages: those of the items that fail, then those of the fields that have no item and cannot
do without, then those of failing transforms. -/
theorem c41_messages (d : Fields V) (ha : Accepted d) (ht : d.transparent = false)
    (hn : NoFlat d.fields) (hm : ∀ f ∈ d.fields, ∀ n sp, f.item.missing n sp ≠ .panic)
    (hpos : 0 < d.fields.countP (·.isParsable)) (mode : Mode) (index : Nat) (l : List Stream)
    (bs : List (Nat × Except SynErr V)) (h : ItemsAll (TupleSeg d.fields) l bs) (hnum : Numbered 0 bs)
    (xs : List (Except SynErr V)) (hxs : xs = (bs.map (·.2)).take (d.fields.countP (·.isParsable))) :
    ∃ r l', ∃ trans : List (List Msg), unnamedFlat d mode index l = (r, l') ∧ trans.length = d.fields.length ∧
      (∀ (k : Nat) f, d.fields[k]? = some f → ∃ m, trans[k]? = some m ∧
        TransMsgs d f (posGiven d.fields xs f k) .panic (posMissing d index (mode.toFullSpan l') f k) m) ∧
      ∀ msgs, msgs = errMsgs xs ++
          eachField d.fields (posMissingMsgs d index (mode.toFullSpan l') xs) ++ trans.flatten →
        (msgs ≠ [] → FailsWith r msgs) ∧ (msgs = [] → ∃ vs, r = .ok vs) := by
  obtain ⟨rs, l', h1, h2, h3⟩ := h.posReads (tupleItem_sound hn) 0 (Nat.zero_le _) hnum
  simp only [Nat.zero_add, Nat.sub_zero] at h1 h2 h3
  rw [← hxs] at h2
  obtain ⟨trans, t1, t2, t3⟩ := unnamedFlat_msgs d ha ht hn hm hpos mode index h1
  rw [h2] at t2 t3
  refine ⟨(unnamedFlat d mode index l).1, l', trans, ?_, t1, t2, ?_⟩
  · rw [← (unnamedFlat_ok d ha ht hn hm hpos mode index h1 []).1]
  · intro msgs hmsgs
    exact t3 msgs (by rw [hmsgs]; simp [stopMsgs])

/-- C41: if every field is plain, without transforms, and there is one item for each, the values of the
items are the values of the fields, in order. -/
theorem c41_all_given (d : Fields V) (ht : d.transparent = false) (ha : Accepted d)
    (hp : ∀ f ∈ d.fields, f.Plain ∧ f.transforms = [])
    (hm : ∀ f ∈ d.fields, ∀ n sp, f.item.missing n sp ≠ .panic) (hpos : d.fields ≠ [])
    (mode : Mode) (index : Nat) (l : List Stream) (vs : List V) (hl : vs.length = d.fields.length)
    (h : ItemsAll (TupleSeg d.fields) l (vs.zipIdx.map fun x => (x.2, .ok x.1))) :
    (unnamedFlat d mode index l).1 = .ok vs := by
  have hn : NoFlat d.fields := fun f hf => (hp f hf).1.1
  have hc : d.fields.countP (·.isParsable) = d.fields.length :=
    List.countP_eq_length.2 fun f hf => (hp f hf).1.2
  have hrank : ∀ k, k ≤ d.fields.length → rank d.fields k = k := by
    intro k hk
    rw [rank, List.countP_eq_length.2 fun f hf => (hp f (List.mem_of_mem_take hf)).1.2]
    simp [hk]
  have hxs : (vs.zipIdx.map fun x => ((x.2, .ok x.1) : Nat × Except SynErr V)).map (·.2) =
      vs.map .ok := by
    rw [List.map_map]
    have : (fun x : V × Nat => (.ok x.1 : Except SynErr V)) = Except.ok ∘ Prod.fst := rfl
    show vs.zipIdx.map (fun x : V × Nat => (.ok x.1 : Except SynErr V)) = _
    rw [this, ← List.map_map, List.zipIdx_map_fst]
  have hnum : Numbered 0 (vs.zipIdx.map fun x => ((x.2, .ok x.1) : Nat × Except SynErr V)) := by
    rw [Numbered, List.map_map]
    show vs.zipIdx.map (fun x => x.2) = _
    simp [List.range_eq_range']
  obtain ⟨r, l', h1, hend, h2⟩ := c41_positions d ha ht hn hm
    (by rw [hc]; exact List.length_pos_iff.2 hpos) mode index l _ h hnum (vs.map .ok)
    (by rw [hxs, hc, ← hl, List.take_of_length_le (by simp)])
  rw [h1]
  refine (h2 vs).2 ⟨?_, hl, fun k f hf => ?_⟩
  · clear h h1 h2 hxs hnum hl hend
    induction vs with
    | nil => rfl
    | cons a as ih => simpa [errMsgs] using ih
  · have hlt := (List.getElem?_eq_some_iff.1 hf).1
    obtain ⟨hpl, htr⟩ := hp f (List.mem_of_getElem? hf)
    refine ⟨vs[k], List.getElem?_eq_getElem (by omega), .inl ⟨vs[k], .item hpl ?_, ?_⟩⟩
    · rw [posGiven, if_pos hpl.2, hrank k (by omega), List.getElem?_map,
        List.getElem?_eq_getElem (by omega)]
      rfl
    · rw [htr]; rfl

/-- C41: too few items.  A field without an item, without a default of its own, in a structure without
default, and whose type has no value for missing items, is an error. -/
theorem c41_too_few (d : Fields V) (ha : Accepted d) (ht : d.transparent = false)
    (hn : NoFlat d.fields) (hm : ∀ f ∈ d.fields, ∀ n sp, f.item.missing n sp ≠ .panic)
    (mode : Mode) (index : Nat) (l : List Stream)
    (bs : List (Nat × Except SynErr V)) (h : ItemsAll (TupleSeg d.fields) l bs) (hnum : Numbered 0 bs)
    (f : Field V) (k : Nat) (hf : d.fields[k]? = some f) (hp : f.isParsable = true)
    (hfew : bs.length ≤ rank d.fields k) (hd : f.default = none) (hs : d.target = none)
    (hty : ∀ n sp, ∃ e, f.item.missing n sp = .err e) :
    ∃ e, (unnamedFlat d mode index l).1 = .err e ∧
      ∃ n sp e', f.item.missing n sp = .err e' ∧ ∀ m ∈ e'.toList, m ∈ e.toList := by
  have hpos : 0 < d.fields.countP (·.isParsable) :=
    List.countP_pos_iff.2 ⟨f, List.mem_of_getElem? hf, hp⟩
  have hrk : rank d.fields k ≤ d.fields.countP (·.isParsable) :=
    (List.take_sublist _ _).countP_le
  obtain ⟨r, l', trans, h1, _, _, h2⟩ := c41_messages d ha ht hn hm hpos mode index l bs h hnum _ rfl
  rw [h1]
  obtain ⟨e', he'⟩ := hty (missingIndexName d (index + (d.fields.take k).countP (!·.isContainer)))
    (mode.toFullSpan l')
  have hmem : ∀ m ∈ e'.toList, m ∈ eachField d.fields (posMissingMsgs d index (mode.toFullSpan l')
      ((bs.map (·.2)).take (d.fields.countP (·.isParsable)))) := by
    intro m hm
    rw [eachField, List.mem_flatten]
    refine ⟨_, List.mem_map.2 ⟨(f, k), List.mem_zipIdx_iff_getElem?.2 hf, rfl⟩, ?_⟩
    simp only [posMissingMsgs]
    rw [if_pos ⟨hp, by simp; omega, hd, hs⟩, posMissing, he']
    exact hm
  have hne : ∃ m, m ∈ e'.toList := ⟨e'.head, by simp [SynErr.toList]⟩
  obtain ⟨h3, _⟩ := h2 _ rfl
  obtain ⟨e, h4, h5⟩ := h3 (by
    obtain ⟨m, hm⟩ := hne
    intro hnil
    simp only [List.append_eq_nil_iff] at hnil
    have := hmem m hm
    rw [hnil.1.2] at this
    cases this)
  refine ⟨e, h4, _, _, e', he', fun m hm => ?_⟩
  rw [h5]
  simp [hmem m hm]

/-- C41, in parentheses: more items than fields are an error; otherwise the outcome is the one described
by `c41_positions`, followed by the `and_then` functions of the structure. -/
theorem c41_parenthesized (d : StructDef V) (hs : d.shape = .unnamed) (ha : d.Accepted)
    (ht : d.isTransparent = false) (hn : NoFlat d.fields)
    (hm : ∀ f ∈ d.fields, ∀ n sp, f.item.missing n sp ≠ .panic)
    (hpos : 0 < d.fields.countP (·.isParsable)) (mode : Mode) (inner : List Tok) (a b : Span)
    (rest : List Tok) (sc : Span) (u : Option Span) (bs : List (Nat × Except SynErr V))
    (h : Items (TupleSeg d.fields) b inner bs) (hnum : Numbered 0 bs) :
    ∃ r u', d.dict.parse mode ⟨.group .paren inner a b :: rest, sc, u⟩ = (r, ⟨rest, sc, u'⟩) ∧
      (d.fields.countP (·.isParsable) < bs.length → ∃ e, r = .err e) ∧
      (bs.length ≤ d.fields.countP (·.isParsable) → ∃ span, ∀ vs, r = .ok vs ↔
        errMsgs (bs.map (·.2)) = [] ∧ ∃ ws, d.andThens.foldlM (fun v f => f v) ws = .ok vs ∧
          ws.length = d.fields.length ∧ ∀ (k : Nat) f, d.fields[k]? = some f → ∃ w, ws[k]? = some w ∧
            PosHolds d.data 0 span (bs.map (·.2)) f k w) := by
  have ha' := ha.fields
  obtain ⟨rs, full, s', h1, h2, h3, _, _, h4⟩ := h.posReads (tupleItem_sound (d := d.data) hn) 0
    (Nat.zero_le _) hnum u
  simp only [Nat.zero_add, Nat.sub_zero] at h1 h2 h3 h4
  have h1' : PosReadsAll (fun i => recover (tupleItem d.data.fields i))
      (d.data.fields.countP (·.isParsable)) 0 [⟨inner, b, u⟩] rs none
      (min (d.data.fields.countP (·.isParsable)) bs.length) [s'] := by
    cases full with
    | true => exact .full h1
    | false => simpa using PosReadsAll.next h1 .nil
  have hst := fun vs => (unnamedFlat_ok d.data ha' ht hn hm hpos mode 0 h1' vs)
  obtain ⟨trans, _, _, t3⟩ := unnamedFlat_msgs d.data ha' ht hn hm hpos mode 0 h1'
  have hnp : (unnamedFlat d.data mode 0 [⟨inner, b, u⟩]).1 ≠ .panic := by
    obtain ⟨t4, t5⟩ := t3 _ rfl
    intro hp
    by_cases hz : errMsgs (rs.map (·.1)) ++ stopMsgs none ++
          eachField d.data.fields (posMissingMsgs d.data 0 (mode.toFullSpan [s']) (rs.map (·.1))) ++
          trans.flatten = []
    · obtain ⟨vs, hv⟩ := t5 hz
      rw [hp] at hv; cases hv
    · obtain ⟨e, he, _⟩ := t4 hz
      rw [hp] at he; cases he
  have hcall : d.flatUnnamed.parse mode 0 [⟨inner, b, u⟩] =
      (runAndThens d.andThens (unnamedFlat d.data mode 0 [⟨inner, b, u⟩]).1, [s']) := by
    simp only [StructDef.flatUnnamed, hs, M.mapRes]
    rw [← (hst []).1]
  have hrp := runAndThens_ne_panic d.andThens hnp
  have hdict : d.dict.parse mode = parseDelimitedMetaItem .paren (fun m => d.flatUnnamed.parse m 0) mode := by
    simp only [StructDef.dict, ht, hs, Bool.false_eq_true, if_false, Dict.mk', parseDelimitedMetaItem]
  rw [hdict]
  by_cases hle : bs.length ≤ d.fields.countP (·.isParsable)
  · obtain ⟨u', h7⟩ := delimited_atEnd (f := fun m => d.flatUnnamed.parse m 0) (dl := .paren) (a := a)
      (rest := rest) (sc := sc) hcall (h3 hle).1 hrp
    refine ⟨_, u', h7, fun hlt => by omega, fun _ => ⟨mode.toFullSpan [s'], fun vs => ?_⟩⟩
    rw [List.take_of_length_le (by simpa [StructDef.data] using hle)] at h2
    have hx := fun ws => (hst ws).2
    rw [h2] at hx
    constructor
    · intro hok
      cases hr : (unnamedFlat d.data mode 0 [⟨inner, b, u⟩]).1 with
      | panic => exact absurd hr hnp
      | err e => simp [hr, runAndThens] at hok
      | ok ws =>
        obtain ⟨_, h9, h10⟩ := (hx ws).1 hr
        refine ⟨h9, ws, ?_, h10⟩
        rw [hr] at hok
        simp only [runAndThens] at hok
        split at hok
        · rename_i v' hv
          cases hok; exact hv
        · cases hok
    · rintro ⟨h9, ws, h10, h11⟩
      rw [(hx ws).2 ⟨rfl, h9, h11⟩]
      simp only [runAndThens, h10]
  · obtain ⟨e, u', h7⟩ := delimited_leftover (f := fun m => d.flatUnnamed.parse m 0) (dl := .paren) (a := a)
      (rest := rest) (sc := sc) hcall (h4 hpos (Nat.lt_of_not_le hle)) hrp
    exact ⟨_, u', h7, fun _ => ⟨e, rfl⟩, fun h => absurd h hle⟩

omit [Env] in
theorem Ends.unparsed {d : Fields V} {f : Field V} {fl ms fl' ms' : Res V} {k : Nat} {v : V}
    (hp : f.isParsable = false) (h : Ends d f none fl ms k v) : Ends d f none fl' ms' k v := by
  have key : ∀ o, Source d f none fl ms o → Source d f none fl' ms' o := by
    intro o ho
    cases ho with
    | item _ hg => cases hg
    | flat hf => simp [Field.flatParsable, hp] at hf
    | container h1 h2 => exact .container h1 h2
    | default h1 h2 => exact .default h1 h2
    | missing h1 => have := h1.2; rw [hp] at this; cases this
    | target h1 h2 h3 => exact .target h1 h2 h3
  rcases h with ⟨b, h1, h2⟩ | ⟨h1, h2⟩
  · exact .inl ⟨b, key _ h1, h2⟩
  · exact .inr ⟨key _ h1, h2⟩

/-- C41, if no field is parsed: the streams must be empty up to a comma, and every field has the value that
it has without an item. -/
theorem c41_none_parsed (d : Fields V) (ha : Accepted d) (ht : d.transparent = false)
    (hn : NoFlat d.fields) (hm : ∀ f ∈ d.fields, ∀ n sp, f.item.missing n sp ≠ .panic)
    (hz : ∀ f ∈ d.fields, f.isParsable = false) (mode : Mode) (index : Nat) (l : List Stream)
    (vs : List V) :
    (unnamedFlat d mode index l).1 = .ok vs ↔ (∀ s ∈ l, AtEnd s.toks) ∧ vs.length = d.fields.length ∧
      ∀ (k : Nat) f, d.fields[k]? = some f → ∃ v, vs[k]? = some v ∧
        Ends d f none .panic .panic k v := by
  have hc : d.fields.countP (·.isParsable) = 0 := List.countP_eq_zero.2 fun f hf => by simp [hz f hf]
  simp only [unnamedFlat, hc, if_true]
  cases he : eofAll l with
  | mk r l1 =>
    cases r with
    | panic => exact absurd (by rw [he]) (eofAll_ne_panic l)
    | err e =>
      constructor
      · intro h; simp at h
      · rintro ⟨h, _⟩
        have := (eofAll_ok l _).2 ⟨h, rfl⟩
        rw [he] at this
        simp at this
    | ok u =>
      have hend := ((eofAll_ok l l1).1 he).1
      have hinit : ∀ (i : Nat) f, d.fields[i]? = some f → d.init[i]? = some .none := by
        intro i f hf
        simp [Fields.init, hf]
      obtain ⟨sts', errs', m1, m2, m3, m4⟩ := missingUnnamed_eq d ht mode l1 index d.fields hn hm d.init
        Errors.new 0 0 (posMissing d index (mode.toFullSpan l1)) (by simp [Fields.init])
        (fun i f hf => by simp [posMissing])
      have hmiss : ∀ (i : Nat) f, d.fields[i]? = some f →
          missOut d (posMissing d index (mode.toFullSpan l1) f i) f .none = (containerSet d f .none, []) := by
        intro i f hf
        simp only [missOut]
        split
        · rfl
        · rename_i hcon
          split
          · rename_i hx
            exfalso
            have hp := hz f (List.mem_of_getElem? hf)
            rcases ha.filled f (List.mem_of_getElem? hf) hp with h | h | h
            · simp [Option.isSome_iff_ne_none] at h; simp [h] at hx
            · simp [Option.isSome_iff_ne_none] at h; simp [h] at hx
            · simp [h.1] at hcon
          · rfl
      have hfl := fun (i : Nat) f (hf : d.fields[i]? = some f) => noFlat_parsable hn hf
      have hs1 : ∀ (i : Nat) f, d.fields[i]? = some f → slot1 f none .panic = .none := by
        intro i f hf
        simp [slot1, outOf, hfl i f hf, flatSlot, slotOf]
      have hpost := post_ok d ha ht (fun _ _ => none) (fun _ _ => .panic)
        (posMissing d index (mode.toFullSpan l1)) (fun i f hf hp => rfl)
        (fun i f hf hp => by rw [hfl i f hf] at hp; cases hp)
        (fun i f hf => hm f (List.mem_of_getElem? hf) _ _) m2
        (fun i f hf => by
          have := m3 i f _ hf (hinit i f hf)
          rw [Nat.zero_add] at this
          rw [slot2, hs1 i f hf]
          exact this)
        (errs := errs') (M := []) (by
          rw [m4 (fun f i => (missOut d (posMissing d index (mode.toFullSpan l1) f i) f
            (slot1 f none .panic)).2) (fun i f st hf hs => by
              rw [hinit i f hf] at hs; cases hs; rw [Nat.zero_add, hs1 i f hf]), eachField]
          simp) (fun _ i f hf => by simp [outOf, hfl i f hf, flatMsg]) vs
      simp only [postUnnamed, m1]
      rw [hpost]
      constructor
      · rintro ⟨_, h1, h2⟩
        refine ⟨hend, h1, fun k f hf => ?_⟩
        obtain ⟨v, h3, h4⟩ := h2 k f hf
        exact ⟨v, h3, h4.unparsed (hz f (List.mem_of_getElem? hf))⟩
      · rintro ⟨_, h1, h2⟩
        refine ⟨rfl, h1, fun k f hf => ?_⟩
        obtain ⟨v, h3, h4⟩ := h2 k f hf
        exact ⟨v, h3, h4.unparsed (hz f (List.mem_of_getElem? hf))⟩

/-! ## Non-trivial cases -/

/-- `struct Pair(bool, #[deluxe(default = true)] bool)` -/
def pair : StructDef Bool where
  shape := .unnamed
  fields := [plainField [] boolDict, { plainField [] boolDict with default := some true }]
  default := none
  transparent := none
  allowUnknown := none
  andThens := []

omit [Env] in
theorem pair_accepted : pair.Accepted := by
  refine ⟨⟨fun f hf hp => ?_, by simp [pair, StructDef.data]⟩, fun h => by simp [pair, StructDef.isTransparent] at h,
    fun _ => ?_⟩
  · simp only [StructDef.data, pair, List.mem_cons, List.not_mem_nil, or_false] at hf
    rcases hf with rfl | rfl <;> simp [plainField, Field.isParsable, Field.isContainer] at hp
  · intro f hf
    simp only [pair, List.mem_cons, List.not_mem_nil, or_false] at hf
    rcases hf with rfl | rfl <;> simp [plainField]

omit [Env] in
theorem pair_fine : pair.FieldsFine := by
  refine ⟨fun f hf => ?_, fun h => by simp [pair] at h, fun _ f hf hp => ?_⟩ <;>
    simp only [pair, List.mem_cons, List.not_mem_nil, or_false] at hf
  · rcases hf with rfl | rfl <;> exact boolDict_good
  · rcases hf with rfl | rfl <;> simp [plainField, Field.flatParsable, Field.isFlat,
      Field.isFlatten] at hp

omit [Env] in
/-- The items `false, true` and `false, true, x` of `Pair`. -/
theorem pair_items : Items (TupleSeg pair.fields) 3
      [.ident "false".toList 1, .punct ',' false 5, .ident "true".toList 6]
      [(0, .ok false), (1, .ok true)] ∧
    Items (TupleSeg pair.fields) 3
      [.ident "false".toList 1, .punct ',' false 5, .ident "true".toList 6, .punct ',' false 7,
        .ident "x".toList 8] [(0, .ok false), (1, .ok true), (2, .ok true)] :=
  ⟨.cons (v := [.ident "false".toList 1]) ⟨_, _, rfl⟩
    (.inl ⟨_, 0, ⟨rfl, rfl, rfl⟩, fun u => ⟨u, rfl⟩⟩)
    (.last (v := [.ident "true".toList 6]) (by simp)
      (.inl ⟨_, 1, ⟨rfl, rfl, rfl⟩, fun u => ⟨u, rfl⟩⟩)),
   .cons (v := [.ident "false".toList 1]) ⟨_, _, rfl⟩
    (.inl ⟨_, 0, ⟨rfl, rfl, rfl⟩, fun u => ⟨u, rfl⟩⟩)
    (.cons (v := [.ident "true".toList 6]) ⟨_, _, rfl⟩
      (.inl ⟨_, 1, ⟨rfl, rfl, rfl⟩, fun u => ⟨u, rfl⟩⟩)
      (.last (v := [.ident "x".toList 8]) (by simp) (.inr ⟨by decide, by simp [NoComma, Comma]⟩)))⟩

/-- C30, C41: `Pair` reads `false, true`. -/
example : (unnamedFlat pair.data .unnamed 0 [⟨[.ident "false".toList 1, .punct ',' false 5,
    .ident "true".toList 6], 3, none⟩]).1 = .ok [false, true] :=
  c41_all_given pair.data rfl pair_accepted.fields (fun f hf => by
      simp only [StructDef.data, pair, List.mem_cons, List.not_mem_nil, or_false] at hf
      rcases hf with rfl | rfl <;> exact ⟨⟨rfl, rfl⟩, rfl⟩)
    (fun f hf n sp => (pair_fine.item f hf).missing n sp) (by simp [StructDef.data, pair]) .unnamed 0 _
    [false, true] rfl (.cons (bs := [_, _]) pair_items.1 .nil)

/-- C41: `Pair` does not parse an empty list. -/
example : ∃ e, (unnamedFlat pair.data .unnamed 0 [⟨[], 3, none⟩]).1 = .err e := by
  obtain ⟨e, he, _⟩ := c41_too_few pair.data pair_accepted.fields rfl
    (fun f hf => by
      simp only [StructDef.data, pair, List.mem_cons, List.not_mem_nil, or_false] at hf
      rcases hf with rfl | rfl <;> rfl)
    (fun f hf n sp => (pair_fine.item f hf).missing n sp) .unnamed 0 [⟨[], 3, none⟩] []
    (.cons (bs := []) .nil .nil) rfl (plainField [] boolDict) 0 rfl rfl (by simp) rfl rfl
    (fun n sp => ⟨_, rfl⟩)
  exact ⟨e, he⟩

/-- C41: `Pair` does not parse `(false, true, x)`. -/
example : ∃ e s, pair.dict.parse .unnamed ⟨[.group .paren [.ident "false".toList 1, .punct ',' false 5,
    .ident "true".toList 6, .punct ',' false 7, .ident "x".toList 8] 2 3], 4, none⟩ = (.err e, s) := by
  obtain ⟨r, u', h1, h2, _⟩ := c41_parenthesized pair rfl pair_accepted rfl
    (fun f hf => by
      simp only [pair, List.mem_cons, List.not_mem_nil, or_false] at hf
      rcases hf with rfl | rfl <;> rfl)
    (fun f hf n sp => (pair_fine.item f hf).missing n sp) (by decide) .unnamed _ 2 3 [] 4 none _
    pair_items.2 (by simp [Numbered, List.range_succ])
  obtain ⟨e, rfl⟩ := h2 (by decide)
  exact ⟨e, _, h1⟩

end

end Deluxe
