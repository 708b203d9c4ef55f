import Verif.Props.AliasesEnum
/-!
# C123: renaming fields changes their keys and nothing else
-/
namespace Deluxe

variable {V : Type}

/-! ## Specification -/

/-- The same items under other keys: `R` says what the keys become. -/
inductive Rekeyed [Env] (R : Str → Str → Prop) : List Tok → List Tok → Prop
  | nil : Rekeyed R [] []
  | last {segs segs' sp v v' vt} : KeyToks segs sp v vt → KeyToks segs' sp v' vt →
      R (keyString segs) (keyString segs') → NoComma vt → Rekeyed R v v'
  | more {segs segs' sp v v' vt c r r'} : KeyToks segs sp v vt → KeyToks segs' sp v' vt →
      R (keyString segs) (keyString segs') → NoComma vt → Comma c → Rekeyed R r r' →
      Rekeyed R (v ++ c :: r) (v' ++ c :: r')

/-- The same for several lists, such as those of several attributes. -/
inductive RekeyedAll [Env] (R : Str → Str → Prop) : List Stream → List Stream → Prop
  | nil : RekeyedAll R [] []
  | cons {ts ts' sc u l l'} : Rekeyed R ts ts' → RekeyedAll R l l' →
      RekeyedAll R (⟨ts, sc, u⟩ :: l) (⟨ts', sc, u⟩ :: l')

/-- The fields differ in their names at most.  Types are asked not to look at the name of the field, except in the
messages if the field is missing. -/
structure Field.Renamed [Env] (f f' : Field V) : Prop where
  default : f'.default = f.default
  container : f'.isContainer = f.isContainer
  parsable : f'.isParsable = f.isParsable
  flat : f'.isFlat = f.isFlat
  transforms : f'.transforms = f.transforms
  item : ∀ n n' sp, f.item.named n sp = f'.item.named n' sp
  missing : ∀ n n' sp v, f.item.missing n sp = .ok v ↔ f'.item.missing n' sp = .ok v

/-- The structures differ in the names of their fields at most. -/
structure Fields.Renamed [Env] (d d' : Fields V) : Prop where
  length : d'.fields.length = d.fields.length
  field : ∀ (i : Nat) (f f' : Field V), d.fields[i]? = some f → d'.fields[i]? = some f' → f.Renamed f'
  target : d'.target = d.target
  obj : d'.obj = d.obj
  unknown : d'.allowUnknown = d.allowUnknown

/-- The keys are names of fields at the same position, or both are unknown. -/
structure KeysAgree (d d' : Fields V) (allowed allowed' : List Str) (pre pre' : Str) (validate : Bool)
    (R : Str → Str → Prop) : Prop where
  own : ∀ k k', R k k' → ∀ i, (∃ f, Owns d.fields pre k f i) ↔ ∃ f', Owns d'.fields pre' k' f' i
  known : ∀ k k', R k k' → (∀ f i, ¬ Owns d.fields pre k f i) → d.allowUnknown = false → validate = true →
    (k ∈ allowed ↔ k' ∈ allowed')

/-- Two parsers give the same value. -/
def Agree [Env] (R : Str → Str → Prop) {α : Type} (q q' : M (List Stream) α) : Prop :=
  ∀ l l', RekeyedAll R l l' → SameOk (q l).1 (q' l').1

section
variable [Env]

/-! ## Items -/

/-- What is asked of the parsers of an item. -/
structure Renames (R : Str → Str → Prop) {β γ : Type} (view view' : β → γ) (p p' : M Stream β) : Prop where
  good : Good p
  local_ : Local p
  good' : Good p'
  local_' : Local p'
  key : ∀ {segs segs' sp v v' vt rest} (sc : Span) (u : Option Span), KeyToks segs sp v vt → KeyToks segs' sp v' vt →
    R (keyString segs) (keyString segs') → NoComma vt → Boundary rest →
    (p ⟨v ++ rest, sc, u⟩).2 = (p' ⟨v' ++ rest, sc, u⟩).2 ∧
      (p ⟨v ++ rest, sc, u⟩).1.map view = (p' ⟨v' ++ rest, sc, u⟩).1.map view'

/-- The same is read of two lists. -/
def AlikeReads {β γ : Type} (view view' : β → γ) (p p' : M Stream β) (s s' : Stream) : Prop :=
  ∃ rs rs' fatal s1 s1', Reads p s rs fatal s1 ∧ Reads p' s' rs' fatal s1' ∧
    rs.map (fun x => view x.1) = rs'.map (fun x => view' x.1)

theorem Rekeyed.reads {R : Str → Str → Prop} {β γ : Type} {view view' : β → γ} {p p' : M Stream β}
    (hp : Renames R view view' p p') {ts ts' : List Tok} (h : Rekeyed R ts ts') (sc : Span) (u : Option Span) :
    AlikeReads view view' p p' ⟨ts, sc, u⟩ ⟨ts', sc, u⟩ := by
  induction h generalizing u with
  | nil => exact ⟨_, _, _, _, _, .done rfl, .done rfl, rfl⟩
  | @last segs segs' sp v v' vt h1 h2 h3 h4 =>
    obtain ⟨e1, e2⟩ := hp.key sc u h1 h2 h3 h4 (.inl rfl)
    simp only [List.append_nil] at e1 e2
    have g1 := (hp.good ⟨v, sc, u⟩).1
    cases hq : p ⟨v, sc, u⟩ with
    | mk r s1 =>
      cases hq' : p' ⟨v', sc, u⟩ with
      | mk r' s1' =>
        have hnc : NoComma s1.toks := by
          have := (hp.good ⟨v, sc, u⟩).2
          rw [hq] at this
          exact (h1.noComma h4).suffix this.toks
        rw [hq] at e1 e2 g1
        rw [hq'] at e1 e2
        dsimp only at e1 e2 g1
        subst e1
        cases r with
        | panic => exact absurd rfl g1
        | err e =>
          cases r' with
          | err e' =>
            simp only [Res.map, Res.err.injEq] at e2
            subst e2
            exact ⟨_, _, _, _, _, .failItem h1.nonempty hq, .failItem h2.nonempty hq', rfl⟩
          | ok b => cases e2
          | panic => cases e2
        | ok b =>
          cases r' with
          | err e' => cases e2
          | panic => cases e2
          | ok b' =>
            simp only [Res.map, Res.ok.injEq] at e2
            cases ht : s1.toks with
            | nil => exact ⟨_, _, _, _, _, .last h1.nonempty hq ht, .last h2.nonempty hq' ht, by simp [e2]⟩
            | cons t rest =>
              have hc : ¬ Comma t := hnc t (by rw [ht]; exact List.mem_cons_self)
              exact ⟨_, _, _, _, _, .failSep h1.nonempty hq ht hc, .failSep h2.nonempty hq' ht hc, by simp [e2]⟩
  | @more segs segs' sp v v' vt c r r' h1 h2 h3 h4 hc _ ih =>
    have hn := h1.noComma h4
    have hn' := h2.noComma h4
    obtain ⟨res, v1, u1, hsuf, hl⟩ := hp.local_ v c sc u hn hc
    obtain ⟨res', v1', u1', hsuf', hl'⟩ := hp.local_' v' c sc u hn' hc
    obtain ⟨e1, e2⟩ := hp.key (rest := c :: r) sc u h1 h2 h3 h4 (.inr ⟨c, r, rfl, hc⟩)
    rw [hl, hl'] at e1 e2
    simp only [Stream.mk.injEq, List.append_cancel_right_eq, true_and] at e1 e2
    obtain ⟨rfl, rfl⟩ := e1
    have q1 := hl r
    have q2 := hl' r'
    have g1 := (hp.good ⟨v ++ c :: r, sc, u⟩).1
    rw [q1] at g1
    cases res with
    | panic => exact absurd rfl g1
    | err e =>
      cases res' with
      | err e' =>
        simp only [Res.map, Res.err.injEq] at e2
        subst e2
        exact ⟨_, _, _, _, _, .failItem (by simp) q1, .failItem (by simp) q2, rfl⟩
      | ok b => cases e2
      | panic => cases e2
    | ok b =>
      cases res' with
      | err e' => cases e2
      | panic => cases e2
      | ok b' =>
        simp only [Res.map, Res.ok.injEq] at e2
        cases v1 with
        | nil =>
          obtain ⟨rs, rs', fatal, s1, s1', h1, h2, h3⟩ := ih u1
          exact ⟨_, _, _, _, _, .more (by simp) q1 rfl hc h1, .more (by simp) q2 rfl hc h2, by simp [e2, h3]⟩
        | cons x v1 =>
          have hx := (hn.suffix hsuf) x List.mem_cons_self
          exact ⟨_, _, _, _, _, .failSep (by simp) q1 rfl hx, .failSep (by simp) q2 rfl hx, by simp [e2]⟩

theorem RekeyedAll.reads {R : Str → Str → Prop} {β γ : Type} {view view' : β → γ} {p p' : M Stream β}
    (hp : Renames R view view' p p') {l l' : List Stream} (h : RekeyedAll R l l') :
    ∃ rs rs' fatal l1 l1', ReadsAll p l rs fatal l1 ∧ ReadsAll p' l' rs' fatal l1' ∧
      rs.map (fun x => view x.1) = rs'.map (fun x => view' x.1) := by
  induction h with
  | nil => exact ⟨_, _, _, _, _, .nil, .nil, rfl⟩
  | @cons ts ts' sc u l l' h _ ih =>
    obtain ⟨rs, rs', fatal, s1, s1', h1, h2, h3⟩ := h.reads hp sc u
    cases fatal with
    | some e => exact ⟨_, _, _, _, _, .fail h1, .fail h2, h3⟩
    | none =>
      obtain ⟨rs2, rs2', fatal, l1, l1', g1, g2, g3⟩ := ih
      exact ⟨_, _, _, _, _, .cons h1 g1, .cons h2 g2, by simp [h3, g3]⟩

theorem RekeyedAll.fork {R : Str → Str → Prop} {l l' : List Stream} (h : RekeyedAll R l l') :
    RekeyedAll R (forkInputs l) (forkInputs l') := by
  induction h with
  | nil => exact .nil
  | cons h _ ih => exact .cons h ih

theorem keyed_local {β : Type} {q : Str → Span → M Stream β} (hl : ∀ k sp, Local (q k sp)) : Local (keyed q) := by
  have : keyed q = (parseAnyPath >>= fun p => q (keyString p.segs) p.span) := by
    funext s
    simp only [keyed, Bind.bind, M.bind]
    split <;> simp_all
  rw [this]
  exact parseAnyPath_local.bind fun p => hl _ _

theorem keyed_renames {R : Str → Str → Prop} {β γ : Type} {view view' : β → γ} {q q' : Str → Span → M Stream β}
    (hg : ∀ k sp, Good (q k sp)) (hl : ∀ k sp, Local (q k sp)) (hg' : ∀ k sp, Good (q' k sp))
    (hl' : ∀ k sp, Local (q' k sp))
    (hq : ∀ k k' sp, R k k' → ∀ s, (q k sp s).2 = (q' k' sp s).2 ∧ (q k sp s).1.map view = (q' k' sp s).1.map view') :
    Renames R view view' (keyed q) (keyed q') where
  good := keyed_good hg
  local_ := keyed_local hl
  good' := keyed_good hg'
  local_' := keyed_local hl'
  key sc u h1 h2 hR _ hr := by
    rw [keyed_key q h1 hr, keyed_key q' h2 hr]
    exact hq _ _ _ hR _

/-! ## Structures -/

/-- What matters of an item: its field and value, or whether its key is in order. -/
def SItem.rough (check : Bool) (allowed : List Str) : SItem V → (Nat × Except SynErr V) ⊕ Bool
  | .field i _ _ x => .inl (i, x)
  | .other k _ => .inr (!check || allowed.contains k)

omit [Env] in
theorem rough_given {check : Bool} {allowed allowed' : List Str} {bs bs' : List (SItem V)}
    (h : bs.map (SItem.rough check allowed) = bs'.map (SItem.rough check allowed')) :
    (∀ i, given i bs = given i bs') ∧ (ItemsOk check allowed bs ↔ ItemsOk check allowed' bs') := by
  have hown : owners bs = owners bs' ∧ ∀ i, given i bs = given i bs' := by
    induction bs generalizing bs' with
    | nil =>
      cases bs' with
      | nil => exact ⟨rfl, fun _ => rfl⟩
      | cons b bs' => simp at h
    | cons b bs ih =>
      cases bs' with
      | nil => simp at h
      | cons b' bs' =>
        simp only [List.map_cons, List.cons.injEq] at h
        obtain ⟨e1, e2⟩ := ih h.2
        have h1 := h.1
        cases b with
        | field i n sp x =>
          cases b' with
          | other k sp => cases h1
          | field i' n' sp' x' =>
            simp only [SItem.rough, Sum.inl.injEq, Prod.mk.injEq] at h1
            obtain ⟨rfl, rfl⟩ := h1
            exact ⟨by simp [owners, e1], fun j => by simp only [given, e2]⟩
        | other k sp =>
          cases b' with
          | field i' n' sp' x' => cases h1
          | other k' sp' => exact ⟨by simp [owners, e1], fun j => by simp only [given, e2]⟩
  have hmem : ∀ {bs bs' : List (SItem V)} {allowed allowed' : List Str},
      bs.map (SItem.rough check allowed) = bs'.map (SItem.rough check allowed') → owners bs = owners bs' →
      ItemsOk check allowed bs → ItemsOk check allowed' bs' := by
    intro bs bs' allowed allowed' h ho hi
    have get : ∀ b' ∈ bs', ∃ b ∈ bs, b.rough check allowed = b'.rough check allowed' := by
      intro b' hb'
      have : b'.rough check allowed' ∈ bs.map (SItem.rough check allowed) := h ▸ List.mem_map_of_mem hb'
      obtain ⟨b, hb, e⟩ := List.mem_map.1 this
      exact ⟨b, hb, e⟩
    refine ⟨ho ▸ hi.once, fun i n sp x hx => ?_, fun k sp hk hc => ?_⟩
    · obtain ⟨b, hb, e⟩ := get _ hx
      cases b with
      | other k sp => cases e
      | field i' n' sp' x' =>
        simp only [SItem.rough, Sum.inl.injEq, Prod.mk.injEq] at e
        obtain ⟨rfl, rfl⟩ := e
        exact hi.values _ _ _ _ hb
    · obtain ⟨b, hb, e⟩ := get _ hk
      cases b with
      | field i' n' sp' x' => cases e
      | other k' sp' =>
        have := hi.known _ _ hb hc
        simp only [SItem.rough, Sum.inr.injEq, hc, Bool.not_true, Bool.false_or, List.contains_eq_mem] at e
        simpa [this] using e
  exact ⟨hown.2, hmem h hown.1, hmem h.symm hown.1.symm⟩

omit [Env] in
theorem structItem_local {fs : List (Field V)} (hl : ∀ f ∈ fs, f.item.Local) (pre k : Str) (sp : Span) :
    Local (structValue fs pre k sp) := by
  unfold structValue
  split
  · rename_i f i heq
    have ho := (owner_some _ _ _ _ _).1 heq
    exact (recover_local ((hl f ho.mem.1).named _ _)).map _
  · exact skip_local _

omit [Env] in
theorem structValue_good {fs : List (Field V)} (hg : PlainGood fs) (pre k : Str) (sp : Span) :
    Good (structValue fs pre k sp) := by
  unfold structValue
  split
  · rename_i f i heq
    have ho := (owner_some _ _ _ _ _).1 heq
    exact Good.map _ (recover_good (hg f ho.mem.1 ho.mem.2.1 _ _))
  · exact fun s => ⟨by simp, skipMetaItem_adv s⟩

theorem structItem_renames {d d' : Fields V} (hd : d.Renamed d') (hg : FieldsGood d.fields) (hg' : FieldsGood d'.fields)
    (hl : ∀ f ∈ d.fields, f.item.Local) (hl' : ∀ f ∈ d'.fields, f.item.Local)
    {allowed allowed' : List Str} {pre pre' : Str} {validate : Bool} {R : Str → Str → Prop}
    (h : KeysAgree d d' allowed allowed' pre pre' validate R) :
    Renames R (SItem.rough (!d.allowUnknown && validate) allowed) (SItem.rough (!d.allowUnknown && validate) allowed')
      (structItem d.fields pre) (structItem d'.fields pre') := by
  refine keyed_renames (structValue_good hg.named pre) (structItem_local hl pre) (structValue_good hg'.named pre')
    (structItem_local hl' pre') fun k k' sp hR s => ?_
  unfold structValue
  cases hk : (stripPrefix pre k).bind (findArm d.fields) with
  | some x =>
    obtain ⟨f, i⟩ := x
    have ho := (owner_some _ _ _ _ _).1 hk
    obtain ⟨f', ho'⟩ := (h.own k k' hR i).1 ⟨f, ho⟩
    rw [(owner_some _ _ _ _ _).2 ho']
    have hf := hd.field i f f' ho.choose_spec.2.1 ho'.choose_spec.2.1
    simp only [M.map]
    rw [hf.item (f.idents.headD []) (f'.idents.headD []) sp]
    generalize recover (f'.item.named (f'.idents.headD []) sp) s = x
    obtain ⟨r, s'⟩ := x
    cases r <;> exact ⟨rfl, rfl⟩
  | none =>
    have hno := (owner_none _ _ _).1 hk
    rw [(owner_none _ _ _).2 fun f' i ho => by
      obtain ⟨f, hf⟩ := (h.own k k' hR i).2 ⟨f', ho⟩
      exact hno f i hf]
    refine ⟨rfl, ?_⟩
    have hmsg : (!(!d.allowUnknown && validate) || allowed.contains k) = (!(!d.allowUnknown && validate) || allowed'.contains k') := by
      by_cases hc : d.allowUnknown = false ∧ validate = true
      · have h1 := h.known k k' hR hno hc.1 hc.2
        by_cases hm : k ∈ allowed
        · simp [hm, h1.1 hm]
        · have hm' : k' ∉ allowed' := fun x => hm (h1.2 x)
          simp [hm, hm']
      · have : (!d.allowUnknown && validate) = false := by
          cases hu : d.allowUnknown <;> cases hv : validate <;> simp_all
        simp [this]
    simp only [Res.map, SItem.rough, hmsg]

omit [Env] in
theorem Source.renamed [Env] {d d' : Fields V} (hd : d.Renamed d') {f f' : Field V} (hf : f.Renamed f')
    {g : Option (Except SynErr V)} {fl fl' ms ms' : Res V} {o : Option V}
    (he : f.flatParsable = true → ∀ v, fl = .ok v → fl' = .ok v) (hm : ∀ v, ms = .ok v → ms' = .ok v)
    (h : Source d f g fl ms o) : Source d' f' g fl' ms' o := by
  have hng : NotGiven d f g → NotGiven d' f' g := by
    intro h
    simpa only [NotGiven, Field.Plain, hf.parsable, hf.flat, hf.container, hd.obj] using h
  cases h with
  | item a b => exact .item (by simpa only [Field.Plain, hf.parsable, hf.flat] using a) b
  | flat a b => exact .flat (by simpa only [Field.flatParsable, hf.parsable, hf.flat] using a) (he a _ b)
  | container a b => exact .container (hf.container ▸ a) (hd.obj ▸ b)
  | default a b => exact .default (hng a) (hf.default ▸ b)
  | missing a b c d e =>
    exact .missing (by simpa only [Field.Plain, hf.parsable, hf.flat] using a) b (hf.default ▸ c) (hd.target ▸ d) (hm _ e)
  | target a b c => exact .target (hng a) (hf.default ▸ b) (hd.target ▸ c)

theorem Field.Renamed.symm {f f' : Field V} (h : f.Renamed f') : f'.Renamed f :=
  ⟨h.default.symm, h.container.symm, h.parsable.symm, h.flat.symm, h.transforms.symm, fun n n' sp => (h.item n' n sp).symm,
    fun n n' sp v => (h.missing n' n sp v).symm⟩

theorem Fields.Renamed.symm {d d' : Fields V} (h : d.Renamed d') : d'.Renamed d :=
  ⟨h.length.symm, fun i f f' h1 h2 => (h.field i f' f h2 h1).symm, h.target.symm, h.obj.symm, h.unknown.symm⟩

theorem Ends.renamed {d d' : Fields V} (hd : d.Renamed d') {f f' : Field V} (hf : f.Renamed f')
    {g : Option (Except SynErr V)} {fl fl' ms ms' : Res V} {i : Nat} {v : V}
    (he : f.flatParsable = true → ∀ v, fl = .ok v → fl' = .ok v) (hm : ∀ v, ms = .ok v → ms' = .ok v)
    (h : Ends d f g fl ms i v) : Ends d' f' g fl' ms' i v := by
  rcases h with ⟨b, h1, h2⟩ | ⟨h1, t, h2, h3⟩
  · exact .inl ⟨b, h1.renamed hd hf he hm, hf.transforms ▸ h2⟩
  · exact .inr ⟨h1.renamed hd hf he hm, t, hd.target ▸ h2, h3⟩

/-- **C123.**  Structures that differ in the names of their fields at most give the same value for inputs that differ in the
keys of the items in the same way.  Their flat fields are asked to agree. -/
theorem c123_struct {d d' : Fields V} (hd : d.Renamed d') (ha : Accepted d) (ha' : Accepted d') (ht : d.transparent = false)
    (ht' : d'.transparent = false) (hg : FieldsGood d.fields) (hg' : FieldsGood d'.fields)
    (hl : ∀ f ∈ d.fields, f.item.Local) (hl' : ∀ f ∈ d'.fields, f.item.Local) (allowed allowed' : List Str) (k : Span)
    (pre pre' : Str) (validate : Bool) {R : Str → Str → Prop} (h : KeysAgree d d' allowed allowed' pre pre' validate R)
    (hfl : ∀ (i : Nat) (f f' : Field V), d.fields[i]? = some f → d'.fields[i]? = some f' → f.flatParsable = true →
      Agree R (f.flatCall pre k allowed) (f'.flatCall pre' k allowed')) :
    Agree R (namedFlat d allowed (.named k) pre validate) (namedFlat d' allowed' (.named k) pre' validate) := by
  intro l l' hr vs
  have hflat : ∀ (i : Nat) (f f' : Field V), d.fields[i]? = some f → d'.fields[i]? = some f' →
      f'.flatParsable = f.flatParsable := by
    intro i f f' h1 h2
    have := hd.field i f f' h1 h2
    simp only [Field.flatParsable, this.flat, this.parsable]
  have hmap : d'.fields.map (·.flatParsable) = d.fields.map (·.flatParsable) := by
    apply List.ext_getElem?
    intro i
    simp only [List.getElem?_map]
    cases h1 : d.fields[i]? with
    | none =>
      have : d'.fields[i]? = none := by
        rw [List.getElem?_eq_none_iff] at h1 ⊢
        rw [hd.length]; exact h1
      rw [this]
    | some f =>
      cases h2 : d'.fields[i]? with
      | none =>
        rw [List.getElem?_eq_none_iff, hd.length] at h2
        rw [List.getElem?_eq_none h2] at h1
        cases h1
      | some f' => simp [hflat i f f' h1 h2]
  have hany : d'.fields.any (·.flatParsable) = d.fields.any (·.flatParsable) := by
    have : ∀ fs : List (Field V), fs.any (·.flatParsable) = (fs.map (·.flatParsable)).any id := fun fs => by simp [List.any_map]
    rw [this, this, hmap]
  have hdrop : ∀ i, (d'.fields.drop (i + 1)).any (·.flatParsable) = (d.fields.drop (i + 1)).any (·.flatParsable) := by
    intro i
    have : ∀ fs : List (Field V), (fs.drop (i + 1)).any (·.flatParsable) = ((fs.map (·.flatParsable)).drop (i + 1)).any id :=
      fun fs => by rw [← List.map_drop, List.any_map]; rfl
    rw [this, this, hmap]
  have hr' : RekeyedAll R (if d.fields.any (·.flatParsable) then forkInputs l else l)
      (if d'.fields.any (·.flatParsable) then forkInputs l' else l') := by
    rw [hany]
    split
    · exact hr.fork
    · exact hr
  obtain ⟨rs, rs', fatal, l1, l1', h1, h2, h3⟩ := hr'.reads (structItem_renames hd hg hg' hl hl' h)
  have h3' : (rs.map (·.1)).map (SItem.rough (!d.allowUnknown && validate) allowed) =
      (rs'.map (·.1)).map (SItem.rough (!d.allowUnknown && validate) allowed') := by simpa [Function.comp_def] using h3
  obtain ⟨hgiven, hok⟩ := rough_given h3'
  rw [namedFlat_ok d ha ht hg allowed (.named k) pre validate h1,
    namedFlat_ok d' ha' ht' hg' allowed' (.named k) pre' validate h2, hd.length, hd.unknown, hok]
  have hfo : ∀ (i : Nat) (f f' : Field V), d.fields[i]? = some f → d'.fields[i]? = some f' → f.flatParsable = true →
      SameOk (flatOut d.fields pre k allowed l f i) (flatOut d'.fields pre' k allowed' l' f' i) := by
    intro i f f' e1 e2 hp
    have := hfl i f f' e1 e2 hp
    unfold flatOut
    rw [hdrop]
    split
    · exact this _ _ hr.fork
    · exact this _ _ hr
  refine and_congr Iff.rfl (and_congr Iff.rfl (and_congr Iff.rfl ?_))
  constructor
  · intro hv i f' hf'
    cases hf : d.fields[i]? with
    | none =>
      rw [List.getElem?_eq_none_iff, ← hd.length] at hf
      rw [List.getElem?_eq_none hf] at hf'
      cases hf'
    | some f =>
      obtain ⟨v, e1, e2⟩ := hv i f hf
      have hR := hd.field i f f' hf hf'
      refine ⟨v, e1, ?_⟩
      have e2 : Ends d f (given i (rs.map (·.1))) (flatOut d.fields pre k allowed l f i)
        (f.item.missing (missingName d pre f) k) i v := e2
      rw [hgiven i] at e2
      exact e2.renamed hd hR (fun hp v => (hfo i f f' hf hf' hp v).1) fun v => (hR.missing _ _ _ v).1
  · intro hv i f hf
    cases hf' : d'.fields[i]? with
    | none =>
      rw [List.getElem?_eq_none_iff, hd.length] at hf'
      rw [List.getElem?_eq_none hf'] at hf
      cases hf
    | some f' =>
      obtain ⟨v, e1, e2⟩ := hv i f' hf'
      have hR := hd.field i f f' hf hf'
      refine ⟨v, e1, ?_⟩
      have e2 : Ends d' f' (given i (rs'.map (·.1))) (flatOut d'.fields pre' k allowed' l' f' i)
        (f'.item.missing (missingName d' pre' f') k) i v := e2
      rw [← hgiven i] at e2
      refine e2.renamed hd.symm hR.symm (fun hp v => (hfo i f f' hf hf' ?_ v).2) fun v => (hR.missing _ _ _ v).2
      rw [← hflat i f f' hf hf']; exact hp

/-! ## Append fields -/

theorem appendItem_renames {α : Type} {p : Str → Span → M Stream α} (hg : ∀ k sp, Good (p k sp))
    (hl : ∀ k sp, Local (p k sp)) (hn : ∀ k k' sp, p k sp = p k' sp) {names names' : List Str} {R : Str → Str → Prop}
    (h : ∀ k k', R k k' → (k ∈ names ↔ k' ∈ names')) : Renames R id id (appendItem names p) (appendItem names' p) := by
  refine keyed_renames (fun k sp => ?_) (fun k sp => ?_) (fun k sp => ?_) (fun k sp => ?_) fun k k' sp hR s => ?_
  · split
    · exact Good.map _ (spanItem_good (hg _ _))
    · exact skipItem_good _
  · split
    · exact (spanItem_local (hl _ _)).map _
    · exact skip_local _
  · split
    · exact Good.map _ (spanItem_good (hg _ _))
    · exact skipItem_good _
  · split
    · exact (spanItem_local (hl _ _)).map _
    · exact skip_local _
  have := h k k' hR
  by_cases hk : k ∈ names
  · rw [if_pos hk, if_pos (this.1 hk), hn k k']
    exact ⟨rfl, rfl⟩
  · rw [if_neg hk, if_neg fun h => hk (this.2 h)]
    exact ⟨rfl, rfl⟩

theorem fold_renames {R : Str → Str → Prop} {β κ : Type} {p p' : M Stream β} (hp : Renames R id id p p') (g : κ → β → κ)
    (k : κ) {l l' : List Stream} (hr : RekeyedAll R l l') :
    ∃ r k' l1 l1', forStreams (itemLoop (foldStep p fun k b _ _ => g k b)) (k, l) = (r, (k', l1)) ∧
      forStreams (itemLoop (foldStep p' fun k b _ _ => g k b)) (k, l') = (r, (k', l1')) := by
  obtain ⟨rs, rs', fatal, l1, l1', h1, h2, h3⟩ := hr.reads hp
  refine ⟨stopped fatal, foldReads (fun k b _ _ => g k b) k rs, l1, l1',
    (fold_iff hp.good _ _ _ _ _ _).2 ⟨rs, fatal, h1, rfl, rfl⟩, (fold_iff hp.good' _ _ _ _ _ _).2 ⟨rs', fatal, h2, rfl, ?_⟩⟩
  rw [foldReads_map, foldReads_map]
  congr 1

/-- **C123.**  A sequence with `append` gets the same values under its new names. -/
theorem c123_append_sequence {α : Type} (d : Dict α) (hg : ∀ n sp, Good (d.named n sp)) (hl : ∀ n sp, Local (d.named n sp))
    (hn : ∀ n n' sp, d.named n sp = d.named n' sp) (names names' : List Str) {R : Str → Str → Prop}
    (h : ∀ k k', R k k' → (k ∈ names ↔ k' ∈ names')) : Agree R (seqAppend d names) (seqAppend d names') := by
  intro l l' hr
  simp only [seqAppend]
  rw [appendStep_eq d.named names pushBack (fun k b => seqAdd k b.1) (fun _ _ => seqSpanStep_eq _),
    appendStep_eq d.named names' pushBack (fun k b => seqAdd k b.1) (fun _ _ => seqSpanStep_eq _)]
  obtain ⟨r, k', l1, l1', h1, h2⟩ := fold_renames (appendItem_renames hg hl hn h)
    (onSome fun k (b : Except SynErr α × Span) => seqAdd k b.1) ⟨[], Errors.new⟩ hr
  simp only [runAccPush, h1, h2]
  cases r <;> exact fun _ => Iff.rfl

/-- **C123.**  The same for sets. -/
theorem c123_append_set {α : Type} [DecidableEq α] (d : Dict α) (hg : ∀ n sp, Good (d.named n sp))
    (hl : ∀ n sp, Local (d.named n sp)) (hn : ∀ n n' sp, d.named n sp = d.named n' sp) (names names' : List Str)
    {R : Str → Str → Prop} (h : ∀ k k', R k k' → (k ∈ names ↔ k' ∈ names')) :
    Agree R (setAppend d names) (setAppend d names') := by
  intro l l' hr
  simp only [setAppend]
  rw [appendStep_eq d.named names setInsert setAdd (fun _ _ => setStep_eq _),
    appendStep_eq d.named names' setInsert setAdd (fun _ _ => setStep_eq _)]
  obtain ⟨r, k', l1, l1', h1, h2⟩ := fold_renames (appendItem_renames hg hl hn h) (onSome setAdd) ⟨[], Errors.new⟩ hr
  simp only [runAcc, h1, h2]
  cases r <;> exact fun _ => Iff.rfl

/-! ## Structures as they are derived -/

/-- Pairs of parsers of `append` and `flatten` fields, in any nesting, that differ in the names at most. -/
inductive PlainRenames (R : Str → Str → Prop) : {α : Type} → M (List Stream) α → M (List Stream) α → Prop
  | appendSeq {α} (d : Dict α) (names names' : List Str) : (∀ n sp, Good (d.named n sp)) →
      (∀ n sp, Local (d.named n sp)) → (∀ n n' sp, d.named n sp = d.named n' sp) →
      (∀ k k', R k k' → (k ∈ names ↔ k' ∈ names')) → PlainRenames R (seqAppend d names) (seqAppend d names')
  | appendSet {α} [DecidableEq α] (d : Dict α) (names names' : List Str) : (∀ n sp, Good (d.named n sp)) →
      (∀ n sp, Local (d.named n sp)) → (∀ n n' sp, d.named n sp = d.named n' sp) →
      (∀ k k', R k k' → (k ∈ names ↔ k' ∈ names')) → PlainRenames R (setAppend d names) (setAppend d names')
  | struct {W} (d d' : StructDef W) (k : Span) (pre pre' : Str) (validate : Bool) : d.data.Renamed d'.data →
      d'.andThens = d.andThens → Accepted d.data → Accepted d'.data → d.isTransparent = false → d'.isTransparent = false →
      FieldsGood d.fields → FieldsGood d'.fields → (∀ f ∈ d.fields, f.item.Local) → (∀ f ∈ d'.fields, f.item.Local) →
      KeysAgree d.data d'.data (Field.fieldNames d.fields) (Field.fieldNames d'.fields) pre pre' validate R →
      (∀ (i : Nat) (f f' : Field W), d.fields[i]? = some f → d'.fields[i]? = some f' → f.flatParsable = true →
        PlainRenames R (f.flatCall pre k (Field.fieldNames d.fields)) (f'.flatCall pre' k (Field.fieldNames d'.fields))) →
      PlainRenames R (d.flatNamed.parse (.named k) pre validate) (d'.flatNamed.parse (.named k) pre' validate)
  | embed {α β} {q q' : M (List Stream) α} (f : α → β) : PlainRenames R q q' →
      PlainRenames R (q.mapRes (·.map f)) (q'.mapRes (·.map f))

omit [Env] in
theorem SameOk.through {α β : Type} {r r' : Res α} (h : SameOk r r') (g : Res α → Res β)
    (hg : ∀ r y, g r = .ok y → ∃ x, r = .ok x) : SameOk (g r) (g r') := by
  intro y
  constructor
  · intro hy
    obtain ⟨x, rfl⟩ := hg _ _ hy
    rw [(h x).1 rfl]; exact hy
  · intro hy
    obtain ⟨x, rfl⟩ := hg _ _ hy
    rw [(h x).2 rfl]; exact hy

/-- **C123.**  All of them agree. -/
theorem c123_every_flat {R : Str → Str → Prop} {α : Type} {q q' : M (List Stream) α} (h : PlainRenames R q q') :
    Agree R q q' := by
  induction h with
  | appendSeq d names names' h1 h2 h3 h4 => exact c123_append_sequence d h1 h2 h3 names names' h4
  | appendSet d names names' h1 h2 h3 h4 => exact c123_append_set d h1 h2 h3 names names' h4
  | struct d d' k pre pre' validate h1 h2 h3 h4 h5 h6 h7 h8 h9 h10 h11 _ ih =>
    intro l l' hr
    have := c123_struct h1 h3 h4 h5 h6 h7 h8 h9 h10 (Field.fieldNames d.fields) (Field.fieldNames d'.fields) k pre pre'
      validate h11 ih l l' hr
    have hx := this.through (runAndThens d.andThens) (by
      intro r y h
      cases r with
      | ok x => exact ⟨x, rfl⟩
      | err e => cases h
      | panic => cases h)
    simp only [StructDef.flatNamed, M.mapRes, h2]
    exact hx
  | embed f _ ih =>
    intro l l' hr
    exact (ih l l' hr).through (Res.map f) (by
      intro r y h
      cases r with
      | ok x => exact ⟨x, rfl⟩
      | err e => cases h
      | panic => cases h)

theorem PlainRenames.whole {R : Str → Str → Prop} {α : Type} {q q' : M (List Stream) α} (h : PlainRenames R q q') :
    Whole q ∧ Whole q' := by
  have hand : ∀ {W : Type} (t : List (List W → Except SynErr (List W))) (r : Res (List W)) y, runAndThens t r = .ok y →
      ∃ x, r = .ok x := by
    intro W t r y h
    cases r with
    | ok x => exact ⟨x, rfl⟩
    | err e => cases h
    | panic => cases h
  induction h with
  | appendSeq d names names' h1 _ =>
    exact ⟨fun l v l' h => (c26_only_sequence d h1 names l l' v h).elim fun _ h => h.2.2,
      fun l v l' h => (c26_only_sequence d h1 names' l l' v h).elim fun _ h => h.2.2⟩
  | appendSet d names names' h1 _ =>
    exact ⟨fun l v l' h => (c26_only_set d h1 names l l' v h).elim fun _ h => h.2.2.2,
      fun l v l' h => (c26_only_set d h1 names' l l' v h).elim fun _ h => h.2.2.2⟩
  | struct d d' k pre pre' validate h1 h2 h3 h4 h5 h6 h7 h8 h9 h10 h11 _ ih =>
    constructor
    · refine (namedFlat_whole d.data h7 (Field.fieldNames d.fields) k pre validate ?_).mapped (hand _)
      intro f hf hp
      obtain ⟨i, hi⟩ := List.getElem?_of_mem hf
      cases hi' : d'.fields[i]? with
      | none =>
        have hl := h1.length
        simp only [StructDef.data] at hl hi
        rw [List.getElem?_eq_none_iff, hl] at hi'
        rw [List.getElem?_eq_none hi'] at hi
        cases hi
      | some f' => exact (ih i f f' hi hi' hp).1
    · refine (namedFlat_whole d'.data h8 (Field.fieldNames d'.fields) k pre' validate ?_).mapped (hand _)
      intro f' hf hp
      obtain ⟨i, hi'⟩ := List.getElem?_of_mem hf
      cases hi : d.fields[i]? with
      | none =>
        have hl := h1.length
        simp only [StructDef.data] at hl hi'
        rw [List.getElem?_eq_none_iff, ← hl] at hi
        rw [List.getElem?_eq_none hi] at hi'
        cases hi'
      | some f =>
        have hR := h1.field i f f' hi hi'
        refine (ih i f f' hi hi' ?_).2
        simpa only [Field.flatParsable, hR.flat, hR.parsable] using hp
  | embed f _ ih =>
    have hm : ∀ (r : Res _) y, Res.map f r = .ok y → ∃ x, r = .ok x := by
      intro r y h
      cases r with
      | ok x => exact ⟨x, rfl⟩
      | err e => cases h
      | panic => cases h
    exact ⟨ih.1.mapped hm, ih.2.mapped hm⟩

/-- **C123.**  Two structures that differ in the names of their fields at most give the same value for inputs that differ in
the keys in the same way: as the items of attributes, in `name(…)` and in braces. -/
theorem c123_names {d d' : StructDef V} (ha : d.Accepted) (ha' : d'.Accepted) (ht : d.isTransparent = false)
    (ht' : d'.isTransparent = false) (hs : d.shape = .named) (hs' : d'.shape = .named) (hg : d.FieldsFine) (hg' : d'.FieldsFine)
    (hl : ∀ f ∈ d.fields, f.item.Local) (hl' : ∀ f ∈ d'.fields, f.item.Local) (hd : d.data.Renamed d'.data)
    (hand : d'.andThens = d.andThens) (hall : d'.acceptsAll = d.acceptsAll) (k : Span) {R : Str → Str → Prop}
    (h : KeysAgree d.data d'.data (Field.fieldNames d.fields) (Field.fieldNames d'.fields) [] [] (!d.acceptsAll) R)
    (hfl : ∀ (i : Nat) (f f' : Field V), d.fields[i]? = some f → d'.fields[i]? = some f' → f.flatParsable = true →
      PlainRenames R (f.flatCall [] k (Field.fieldNames d.fields)) (f'.flatCall [] k (Field.fieldNames d'.fields))) :
    (∀ l l', RekeyedAll R l l' → SameOk (d.dict.inline (.named k) l).1 (d'.dict.inline (.named k) l').1) ∧
    (∀ ts ts', Rekeyed R ts ts' → ∀ a b rest sc u,
      SameOk (d.dict.parse (.named k) ⟨.group .brace ts a b :: rest, sc, u⟩).1
        (d'.dict.parse (.named k) ⟨.group .brace ts' a b :: rest, sc, u⟩).1 ∧
      ∀ n n', SameOk (d.dict.named n k ⟨.group .paren ts a b :: rest, sc, u⟩).1
        (d'.dict.named n' k ⟨.group .paren ts' a b :: rest, sc, u⟩).1) := by
  have hp : PlainRenames R (d.flatNamed.parse (.named k) [] (!d.acceptsAll)) (d'.flatNamed.parse (.named k) [] (!d.acceptsAll)) :=
    .struct d d' k [] [] _ hd hand ha.fields ha'.fields ht ht'
      ⟨fun f hf _ => (hg.item f hf).named, fun f hf => (hg.item f hf).missing, hg.flat hs⟩
      ⟨fun f hf _ => (hg'.item f hf).named, fun f hf => (hg'.item f hf).missing, hg'.flat hs'⟩ hl hl' h hfl
  have hb := c123_every_flat hp
  have hi : ∀ {d : StructDef V}, d.isTransparent = false → d.shape = .named → ∀ mode,
      d.dict.inline mode = d.flatNamed.parse mode [] (!d.acceptsAll) := by
    intro d ht hs mode
    simp only [StructDef.dict, ht, hs]
    rfl
  have key : ∀ dl ts ts', Rekeyed R ts ts' → ∀ a b rest sc u,
      SameOk (parseDelimitedMetaItem dl (fun mode => d.flatNamed.parse mode [] (!d.acceptsAll)) (.named k)
        ⟨.group dl ts a b :: rest, sc, u⟩).1
      (parseDelimitedMetaItem dl (fun mode => d'.flatNamed.parse mode [] (!d.acceptsAll)) (.named k)
        ⟨.group dl ts' a b :: rest, sc, u⟩).1 := by
    intro dl ts ts' hr a b rest sc u vs
    rw [brackets_iff (d.flatNamed_good ha ht hs hg _ _ _) fun l' h => hp.whole.1 _ _ _ h,
      brackets_iff (d'.flatNamed_good ha' ht' hs' hg' _ _ _) fun l' h => hp.whole.2 _ _ _ h]
    exact hb _ _ (.cons hr .nil) vs
  refine ⟨fun l l' hr => ?_, fun ts ts' hr a b rest sc u => ⟨?_, fun n n' => ?_⟩⟩
  · rw [hi ht hs, hi ht' hs', hall]
    exact hb l l' hr
  · have e : ∀ {d : StructDef V}, d.isTransparent = false → d.shape = .named → d.dict.parse (.named k) =
        parseDelimitedMetaItem .brace (fun mode => d.flatNamed.parse mode [] (!d.acceptsAll)) (.named k) := by
      intro d ht hs
      simp only [StructDef.dict, ht, hs]
      rfl
    rw [e ht hs, e ht' hs', hall]
    exact key .brace ts ts' hr a b rest sc u
  · have e : ∀ {d : StructDef V}, d.isTransparent = false → d.shape = .named → ∀ n ts, d.dict.named n k ⟨.group .paren ts a b :: rest, sc, u⟩ =
        parseDelimitedMetaItem .paren (fun mode => d.flatNamed.parse mode [] (!d.acceptsAll)) (.named k)
          ⟨.group .paren ts a b :: rest, sc, u⟩ := by
      intro d ht hs n ts
      simp only [StructDef.dict, ht, hs]
      rfl
    rw [e ht hs, e ht' hs', hall]
    exact key .paren ts ts' hr a b rest sc u

/-! ## Renaming -/

/-- The field with other names, as `rename` and `alias` give them. -/
def Field.rename (ρ : Str → Str) (f : Field V) : Field V := { f with idents := f.idents.map ρ }

/-- The structure with other names of its fields. -/
def StructDef.rename (ρ : Str → Str) (d : StructDef V) : StructDef V := { d with fields := d.fields.map (·.rename ρ) }

/-- The type of the field does not look at its name, except in the message that it is missing. -/
def Field.TypeBlind (f : Field V) : Prop :=
  (∀ n n' sp, f.item.named n sp = f.item.named n' sp) ∧
    ∀ n n' sp v, f.item.missing n sp = .ok v ↔ f.item.missing n' sp = .ok v

/-- A sequence or set with `append`, or a flattened structure with names that stay the same. -/
inductive FlatRenamed (ρ : Str → Str) (f : Field V) : Prop
  | appendSeq {α : Type} (d : Dict α) (g : List α → V) : f.append.getD false = true →
      (∀ names, f.appendP names = (seqAppend d names).mapRes (·.map g)) → d.Good → d.Local →
      (∀ n n' sp, d.named n sp = d.named n' sp) → FlatRenamed ρ f
  | appendSet {α : Type} [DecidableEq α] (d : Dict α) (g : List α → V) : f.append.getD false = true →
      (∀ names, f.appendP names = (setAppend d names).mapRes (·.map g)) → d.Good → d.Local →
      (∀ n n' sp, d.named n sp = d.named n' sp) → FlatRenamed ρ f
  | flatten {W : Type} (d : StructDef W) (g : List W → V) : f.append.getD false = false → f.rest.getD false = false →
      f.flatNamed.parse = (fun m pre v => (d.flatNamed.parse m pre v).mapRes (·.map g)) → Accepted d.data →
      d.isTransparent = false → FieldsGood d.fields → (∀ h ∈ d.fields, h.item.Local) → (∀ h ∈ d.fields, h.TypeBlind) →
      d.fields.all (fun h => !h.isFlat) = true →
      (∀ key h i, Owns d.fields
        (match f.flatten.bind (·.pre) with | some p => joinPrefix [] p | none => []) key h i → ρ key = key) →
      FlatRenamed ρ f

theorem Field.rename_renamed {f : Field V} (h : f.TypeBlind) (ρ : Str → Str) : f.Renamed (f.rename ρ) :=
  ⟨rfl, rfl, rfl, rfl, rfl, h.1, h.2⟩

theorem StructDef.rename_renamed {d : StructDef V} (h : ∀ f ∈ d.fields, f.TypeBlind) (ρ : Str → Str) :
    d.data.Renamed (d.rename ρ).data where
  length := by simp [StructDef.data, StructDef.rename]
  field i f f' h1 h2 := by
    have h1 : d.fields[i]? = some f := h1
    have h2 : (d.fields.map (·.rename ρ))[i]? = some f' := h2
    rw [List.getElem?_map, h1] at h2
    cases h2
    exact Field.rename_renamed (h f (List.mem_of_getElem? h1)) ρ
  target := rfl
  obj := rfl
  unknown := rfl

omit [Env] in
theorem StructDef.rename_accepted {d : StructDef V} (h : d.Accepted) (ρ : Str → Str) : (d.rename ρ).Accepted where
  fields := by
    refine ⟨fun f hf hp => ?_, fun t ht => ?_⟩
    · obtain ⟨g, hg, rfl⟩ := List.mem_map.1 hf
      exact h.fields.filled g hg hp
    · have := h.fields.target t ht
      simpa [StructDef.data, StructDef.rename] using this
  transparent ht := by
    have e : (d.rename ρ).fields.countP (·.isParsable) = d.fields.countP (·.isParsable) := by
      simp only [StructDef.rename, List.countP_map]
      rfl
    rw [e]
    refine h.transparent ?_
    simpa [StructDef.isTransparent, StructDef.rename, List.filter_map, Function.comp_def, Field.rename, Field.isParsable,
      Field.isContainer, Field.isFlat, Field.isFlatten, ← List.map_take] using ht
  tuple hs := by
    have := h.tuple hs
    intro f hf
    obtain ⟨g, hg, rfl⟩ := List.mem_map.1 hf
    exact this g hg

omit [Env] in
theorem StructDef.rename_transparent (d : StructDef V) (ρ : Str → Str) : (d.rename ρ).isTransparent = d.isTransparent := by
  simp [StructDef.isTransparent, StructDef.rename, List.filter_map, Function.comp_def, Field.rename, Field.isParsable,
    Field.isContainer, Field.isFlat, Field.isFlatten, ← List.map_take]

omit [Env] in
theorem StructDef.rename_acceptsAll (d : StructDef V) (ρ : Str → Str) : (d.rename ρ).acceptsAll = d.acceptsAll := by
  simp [StructDef.acceptsAll, StructDef.rename, Field.acceptsAll, List.any_map, Function.comp_def, Field.rename, Field.isFlatten]

omit [Env] in
theorem owns_rename {ρ : Str → Str} (hρ : ∀ a b, ρ a = ρ b → a = b) (fs : List (Field V)) (k : Str) (i : Nat) :
    (∃ f, Owns fs [] k f i) ↔ ∃ f', Owns (fs.map (·.rename ρ)) [] (ρ k) f' i := by
  have mem : ∀ (f : Field V) (k : Str), ρ k ∈ (f.rename ρ).idents ↔ k ∈ f.idents := by
    intro f k
    simp only [Field.rename, List.mem_map]
    exact ⟨fun ⟨a, h1, h2⟩ => hρ _ _ h2 ▸ h1, fun h => ⟨k, h, rfl⟩⟩
  constructor
  · rintro ⟨f, n, h1, h2, h3, h4, h5⟩
    obtain rfl : k = n := h1
    refine ⟨f.rename ρ, ρ k, rfl, by simp [h2], h3, (mem f k).2 h4, fun j g hj hg hp hn => ?_⟩
    rw [List.getElem?_map, Option.map_eq_some_iff] at hg
    obtain ⟨g, hg, rfl⟩ := hg
    exact h5 j g hj hg hp ((mem g k).1 hn)
  · rintro ⟨f', n, h1, h2, h3, h4, h5⟩
    obtain rfl : ρ k = n := h1
    rw [List.getElem?_map, Option.map_eq_some_iff] at h2
    obtain ⟨f, hf, rfl⟩ := h2
    exact ⟨f, k, rfl, hf, h3, (mem f k).1 h4, fun j g hj hg hp hn =>
      h5 j (g.rename ρ) hj (by simp [hg]) hp ((mem g k).2 hn)⟩

omit [Env] in
theorem fieldNames_rename {ρ : Str → Str} (fs : List (Field V))
    (h : ∀ f ∈ fs, f.isParsable = true → f.isFlatten = true → ∀ n ∈ f.names, ρ n = n) :
    Field.fieldNames (fs.map (·.rename ρ)) = (Field.fieldNames fs).map ρ := by
  simp only [Field.fieldNames, List.filter_map, List.flatMap_map, List.map_flatMap]
  have : ((fun f : Field V => f.isParsable) ∘ fun f : Field V => f.rename ρ) = fun f : Field V => f.isParsable := rfl
  rw [this]
  simp only [List.flatMap_def]
  congr 1
  apply List.map_congr_left
  intro f hf
  obtain ⟨h1, h2⟩ := List.mem_filter.1 hf
  have h3 := h f h1 h2
  have fixed : ∀ l : List Str, (∀ n ∈ l, ρ n = n) → l = l.map ρ := fun l hl => by
    conv => lhs; rw [← List.map_id l]
    exact List.map_congr_left fun n hn => (hl n hn).symm
  cases hfl : f.flatten with
  | none => simp [Field.names, Field.rename, hfl]
  | some x =>
    obtain ⟨b, p⟩ := x
    cases b with
    | false => simp [Field.names, Field.rename, hfl]
    | true =>
      have hn : (f.rename ρ).names = f.names := by
        cases p <;> simp [Field.names, Field.rename, hfl]
      rw [hn]
      exact fixed _ (h3 (by simp [Field.isFlatten, hfl]))

/-- **C123.**  Renaming fields changes their keys and nothing else: the structure with other names gives the same value for
the items with other keys. -/
theorem c123_rename (d : StructDef V) (ρ : Str → Str) (hρ : ∀ a b, ρ a = ρ b → a = b) (ha : d.Accepted)
    (ht : d.isTransparent = false) (hs : d.shape = .named) (hg : d.FieldsFine) (hg' : (d.rename ρ).FieldsFine)
    (hl : ∀ f ∈ d.fields, f.item.Local) (hb : ∀ f ∈ d.fields, f.TypeBlind) (k : Span)
    (hfix : ∀ f ∈ d.fields, f.isParsable = true → f.isFlatten = true → ∀ n ∈ f.names, ρ n = n)
    (hfl : ∀ f ∈ d.fields, f.flatParsable = true → FlatRenamed ρ f) :
    (∀ l l', RekeyedAll (fun k k' => k' = ρ k) l l' →
      SameOk (d.dict.inline (.named k) l).1 ((d.rename ρ).dict.inline (.named k) l').1) ∧
    (∀ ts ts', Rekeyed (fun k k' => k' = ρ k) ts ts' → ∀ a b rest sc u,
      SameOk (d.dict.parse (.named k) ⟨.group .brace ts a b :: rest, sc, u⟩).1
        ((d.rename ρ).dict.parse (.named k) ⟨.group .brace ts' a b :: rest, sc, u⟩).1 ∧
      ∀ n n', SameOk (d.dict.named n k ⟨.group .paren ts a b :: rest, sc, u⟩).1
        ((d.rename ρ).dict.named n' k ⟨.group .paren ts' a b :: rest, sc, u⟩).1) := by
  have hmap : ∀ (l : List Str) k, k ∈ l ↔ ρ k ∈ l.map ρ := fun l k =>
    ⟨fun h => List.mem_map_of_mem h, fun h => by
      obtain ⟨a, h1, h2⟩ := List.mem_map.1 h
      exact hρ _ _ h2 ▸ h1⟩
  refine c123_names ha (d.rename_accepted ha ρ) ht ((d.rename_transparent ρ).trans ht) hs hs hg hg' hl ?_
    (d.rename_renamed hb ρ) rfl (d.rename_acceptsAll ρ) k ⟨?_, ?_⟩ ?_
  · intro f hf
    obtain ⟨g, hg, rfl⟩ := List.mem_map.1 hf
    exact hl g hg
  · rintro k k' rfl i
    exact owns_rename hρ d.fields k i
  · rintro k k' rfl - - -
    have : Field.fieldNames (d.rename ρ).fields = _ := fieldNames_rename d.fields hfix
    rw [this]
    exact hmap _ _
  · intro i f f' h1 h2 hp
    have h2 : (d.fields.map (·.rename ρ))[i]? = some f' := h2
    rw [List.getElem?_map, h1] at h2
    cases h2
    have hj : ∀ l : List Str, joinPaths [] l = l := fun l => by
      have : joinPath [] = id := rfl
      simp [joinPaths, this]
    cases hfl f (List.mem_of_getElem? h1) hp with
    | appendSeq dd g e1 e2 e3 e4 e5 =>
      have e1' : (f.rename ρ).append.getD false = true := e1
      have e2' : ∀ names, (f.rename ρ).appendP names = (seqAppend dd names).mapRes (·.map g) := e2
      simp only [Field.flatCall, e1, e1', if_true, e2, e2', hj]
      exact .embed g (.appendSeq dd _ _ e3.named e4.named e5 (by rintro k k' rfl; exact hmap _ _))
    | appendSet dd g e1 e2 e3 e4 e5 =>
      have e1' : (f.rename ρ).append.getD false = true := e1
      have e2' : ∀ names, (f.rename ρ).appendP names = (setAppend dd names).mapRes (·.map g) := e2
      simp only [Field.flatCall, e1, e1', if_true, e2, e2', hj]
      exact .embed g (.appendSet dd _ _ e3.named e4.named e5 (by rintro k k' rfl; exact hmap _ _))
    | flatten dd g e1 e2 e3 e4 e5 e6 e7 e8 e9 e10 =>
      have hc : ∀ allowed, (f.rename ρ).flatCall [] k allowed = f.flatCall [] k allowed := by
        intro allowed
        simp only [Field.flatCall, Field.rename, e1, Bool.false_eq_true, if_false]
        rfl
      rw [hc]
      simp only [Field.flatCall, e1, e2, Bool.false_eq_true, if_false, e3]
      refine .embed g (.struct dd dd k _ _ false ⟨rfl, fun i a b ha hb => ?_, rfl, rfl, rfl⟩ rfl e4 e4 e5 e5 e6 e6 e7 e7
        ⟨?_, fun _ _ _ _ _ h => by cases h⟩ fun i a b ha hb hpar => ?_)
      · rw [ha] at hb
        cases hb
        have := e8 a (List.mem_of_getElem? ha)
        exact ⟨rfl, rfl, rfl, rfl, rfl, this.1, this.2⟩
      · rintro key key' rfl i
        constructor
        · rintro ⟨h, ho⟩
          exact ⟨h, by rw [e10 _ _ _ ho]; exact ho⟩
        · rintro ⟨h, ho⟩
          have := hρ _ _ (e10 _ _ _ ho)
          rw [this] at ho
          exact ⟨h, ho⟩
      · have := List.all_eq_true.1 e9 a (List.mem_of_getElem? ha)
        simp only [Field.flatParsable, Bool.and_eq_true] at hpar
        simp [hpar.1] at this

/-! ## Examples -/

/-- Exchanges the names `a` and `c`. -/
def swapAC (k : Str) : Str := if k = ['a'] then ['c'] else if k = ['c'] then ['a'] else k

omit [Env] in
theorem swapAC_injective (a b : Str) (h : swapAC a = swapAC b) : a = b := by
  unfold swapAC at h
  split at h <;> split at h <;> (try split at h) <;> (try split at h) <;> simp_all

/-- C123: the conditions are met by a structure with an alias, a flattened field and an append field, … -/
example : (∀ f ∈ aliased.fields, f.item.Local) ∧ (∀ f ∈ aliased.fields, f.TypeBlind) ∧
    (∀ f ∈ aliased.fields, f.isParsable = true → f.isFlatten = true → ∀ n ∈ f.names, swapAC n = n) ∧
    (∀ f ∈ aliased.fields, f.flatParsable = true → FlatRenamed swapAC f) := by
  have hloc : (boolDict.map fun b => [b]).Local :=
    ⟨fun m => (c56_bool.parse m).map _, fun n sp => (c56_bool.named n sp).map _⟩
  have hblind : (∀ n n' sp, (boolDict.map fun b => [b]).named n sp = (boolDict.map fun b => [b]).named n' sp) ∧
      ∀ n n' sp v, (boolDict.map fun b => [b]).missing n sp = .ok v ↔ (boolDict.map fun b => [b]).missing n' sp = .ok v :=
    ⟨fun _ _ _ => rfl, fun n n' sp v => ⟨nofun, nofun⟩⟩
  refine ⟨aliased_all.2 ⟨hloc, hloc, hloc⟩, aliased_all.2 ⟨hblind, hblind, hblind⟩,
    aliased_all.2 ⟨fun _ h => (by cases h), fun _ _ n hn => ?_, fun _ h => (by cases h)⟩,
    aliased_all.2 ⟨fun h => (by cases h), fun _ => ?_, fun _ => ?_⟩⟩
  · have : n ∈ [['p'], ['q']] := hn
    simp only [List.mem_cons, List.not_mem_nil, or_false] at this
    rcases this with rfl | rfl <;> decide
  · refine .flatten (twoNamed "p" "q") id rfl rfl ?_ ?_ rfl ?_ ?_ ?_ rfl ?_
    · funext m pre v
      exact (map_id_flat _).symm
    · refine ⟨fun f hf h => ?_, fun t h => by cases h⟩
      simp only [StructDef.data, twoNamed, List.mem_cons, List.not_mem_nil, or_false] at hf
      rcases hf with rfl | rfl <;> cases h
    · exact ⟨fun f hf _ => (twoNamed_fine.item f hf).named, fun f hf => (twoNamed_fine.item f hf).missing,
        twoNamed_fine.flat rfl⟩
    · intro f hf
      simp only [twoNamed, List.mem_cons, List.not_mem_nil, or_false] at hf
      rcases hf with rfl | rfl <;> exact c56_bool
    · intro f hf
      simp only [twoNamed, List.mem_cons, List.not_mem_nil, or_false] at hf
      rcases hf with rfl | rfl <;> exact ⟨fun _ _ _ => rfl, fun n n' sp v => ⟨nofun, nofun⟩⟩
    · rintro key h i ⟨n, h1, h2, h3, h4, -⟩
      obtain rfl : key = n := h1
      have hf := List.mem_of_getElem? h2
      simp only [twoNamed, List.mem_cons, List.not_mem_nil, or_false] at hf
      rcases hf with rfl | rfl <;>
      · have : key = _ := List.mem_singleton.1 h4
        rw [this]
        decide
  · exact .appendSeq boolDict id rfl (fun _ => (map_id_flat _).symm) boolDict_good c56_bool fun _ _ _ => rfl

/-- … and `{q, c, p}` is for the renamed structure what `{q, a, p}` is for the structure; it does not know `a`. -/
example : letI : Env := ⟨fun a _ => some a, fun _ _ => 0, 1⟩
    ((aliased.dict.parse (.named 0) ⟨[.group .brace [.ident ['q'] 1, .punct ',' false 2, .ident ['a'] 3, .punct ',' false 4,
      .ident ['p'] 5] 8 9], 0, none⟩).1 matches .ok [[true], [true, true], []]) ∧
    (((aliased.rename swapAC).dict.parse (.named 0) ⟨[.group .brace [.ident ['q'] 1, .punct ',' false 2, .ident ['c'] 3,
      .punct ',' false 4, .ident ['p'] 5] 8 9], 0, none⟩).1 matches .ok [[true], [true, true], []]) ∧
    (((aliased.rename swapAC).dict.parse (.named 0) ⟨[.group .brace [.ident ['q'] 1, .punct ',' false 2, .ident ['a'] 3,
      .punct ',' false 4, .ident ['p'] 5] 8 9], 0, none⟩).1 matches .err _) := by
  decide +kernel

end
end Deluxe
