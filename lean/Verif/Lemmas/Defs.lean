import Verif.Model.Defs
import Verif.Lemmas.Attributes
import Verif.Props.Paths
import Verif.Props.AttrTokens
/-!
# Lemmas about reading definitions
-/
namespace Deluxe
variable [Env]

/-! ## Loops over items -/

omit [Env] in
theorem forStreams_length {κ : Type} (body : Nat → M (κ × Stream) Unit) (k : κ) (l : List Stream) :
    (forStreams body (k, l)).2.2.length = l.length := by
  show (forStreams.go body k l).2.2.length = l.length
  induction l generalizing k with
  | nil => rfl
  | cons s l ih =>
    rw [forStreams.go]
    split
    · simp [ih]
    · simp

omit [Env] in
theorem itemLoop_inv {κ : Type} {P : κ → Prop} {step : M (κ × Stream) Unit}
    (hs : ∀ st, P st.1 → P (step st).2.1) : ∀ n (st : κ × Stream), P st.1 → P (itemLoop step n st).2.1 := by
  intro n
  induction n with
  | zero => intro st h; exact h
  | succ n ih =>
    intro st h
    rw [itemLoop_succ]
    have h1 := hs st h
    split
    · exact h
    · split
      · rename_i st1 hst
        rw [hst] at h1
        split
        · exact ih _ h1
        · split
          · exact ih _ h1
          · exact h1
          · exact h1
      · rename_i hst; rw [hst] at h1; exact h1
      · rename_i hst; rw [hst] at h1; exact h1

/-- What every call of the callback preserves holds at the end. -/
theorem parseStruct_inv {κ : Type} {P : κ → Prop} {func : Str → Span → M (κ × Stream) Unit}
    (hf : ∀ path span st, P st.1 → P (func path span st).2.1) (k : κ) (l : List Stream) (h : P k) :
    P (parseStruct func (k, l)).2.1 := by
  show P (forStreams.go (structLoop func) k l).2.1
  induction l generalizing k with
  | nil => exact h
  | cons s l ih =>
    rw [forStreams.go]
    have h1 : P (structLoop func (s.toks.length + 1) (k, s)).2.1 := by
      rw [structLoop_eq]
      refine itemLoop_inv (fun st hst => ?_) _ _ h
      show P (M.bind (M.onSnd parseAnyPath) (fun path => func (keyString path.segs) path.span) st).2.1
      rw [M.bind_apply]
      cases hp : parseAnyPath st.2 with
      | mk r s' =>
        have : M.onSnd parseAnyPath st = (r, (st.1, s')) := by simp only [M.onSnd, hp]
        rw [this]
        cases r with
        | ok p => exact hf _ _ (st.1, s') hst
        | err e => exact hst
        | panic => exact hst
    split
    · rename_i k' s' hb
      rw [hb] at h1
      exact ih k' h1
    · rename_i r k' s' _ hb
      rw [hb] at h1
      exact h1

theorem collectStruct_length {κ α : Type} (init : Acc κ) (step : Str → Span → M (Acc κ × Stream) Unit)
    (fin : Acc κ → Errors × α) (l : List Stream) : (collectStruct init step fin l).2.length = l.length := by
  have h : (parseStruct step (init, l)).2.2.length = l.length := forStreams_length _ _ _
  unfold collectStruct
  split <;> (rename_i h'; rw [h'] at h; exact h)

omit [Env] in
theorem Errors.intoResult_ok_iff {α : Type} (e : Errors) (a b : α) :
    e.intoResult a = .ok b ↔ e.toList = [] ∧ a = b := by
  rcases e with ⟨_ | s⟩
  · simp [Errors.toList, Errors.intoResult]
  · simp [Errors.toList, Errors.intoResult, SynErr.toList]

theorem collectStruct_ok {κ α : Type} {init : Acc κ} {step : Str → Span → M (Acc κ × Stream) Unit}
    {fin : Acc κ → Errors × α} {l l' : List Stream} {a : α}
    (hfin : ∀ acc, (fin acc).1.toList = [] → acc.errs.toList = [])
    (h : collectStruct init step fin l = (.ok a, l')) :
    ∃ acc, parseStruct step (init, l) = (.ok (), (acc, l')) ∧ acc.errs.toList = [] ∧
      (fin acc).1.toList = [] ∧ a = (fin acc).2 := by
  unfold collectStruct at h
  split at h
  · simp at h
  · rename_i acc l1 hp
    rw [Prod.mk.injEq, Errors.intoResult_ok_iff] at h
    obtain ⟨⟨hn, rfl⟩, rfl⟩ := h
    exact ⟨acc, hp, hfin _ hn, hn, rfl⟩
  · rename_i e acc l1 hp
    rw [Prod.mk.injEq, Errors.intoResult_ok_iff] at h
    have := hfin _ h.1.1
    simp [SynErr.toList] at this

/-! ## The checks at the end -/

omit [Env] in
theorem onlyOne_nil (attrs : List (Str × Option Span)) (pre : Str) (errs : Errors) :
    (onlyOne attrs pre errs).toList = [] ↔ errs.toList = [] ∧ (presentAttrs attrs).length ≤ 1 := by
  obtain ⟨h1, h2⟩ := c49_only_one attrs pre errs
  by_cases h : (presentAttrs attrs).length ≤ 1
  · simp [h1 h, h]
  · have h' : 2 ≤ (presentAttrs attrs).length := by omega
    rw [h2 h']
    constructor
    · intro he
      rw [List.append_eq_nil_iff, List.map_eq_nil_iff] at he
      rw [he.2] at h'; simp at h'
    · intro he; exact absurd he.2 h

omit [Env] in
theorem onlyOne_mono (attrs : List (Str × Option Span)) (pre : Str) (errs : Errors) :
    errs.toList <+: (onlyOne attrs pre errs).toList := by
  obtain ⟨h1, h2⟩ := c49_only_one attrs pre errs
  by_cases h : (presentAttrs attrs).length ≤ 1
  · rw [h1 h]; exact List.prefix_refl _
  · rw [h2 (by omega)]; exact List.prefix_append _ _

omit [Env] in
theorem onlyOne_foldl_nil (ls : List (List (Str × Option Span))) (errs : Errors) :
    (ls.foldl (fun errs l => onlyOne l [] errs) errs).toList = [] ↔
      errs.toList = [] ∧ ∀ l ∈ ls, (presentAttrs l).length ≤ 1 := by
  induction ls generalizing errs with
  | nil => simp
  | cons l ls ih => rw [List.foldl_cons, ih, onlyOne_nil]; simp [and_assoc]

omit [Env] in
theorem present_pair (a b : Str) (x y : Option Span) :
    (presentAttrs [(a, x), (b, y)]).length ≤ 1 ↔ ¬ (x.isSome = true ∧ y.isSome = true) := by
  cases x <;> cases y <;> simp [presentAttrs]

omit [Env] in
theorem present_triple (a b c : Str) (x y z : Option Span) :
    (presentAttrs [(a, x), (b, y), (c, z)]).length ≤ 1 ↔ ¬ (x.isSome = true ∧ y.isSome = true) ∧
      ¬ (x.isSome = true ∧ z.isSome = true) ∧ ¬ (y.isSome = true ∧ z.isSome = true) := by
  cases x <;> cases y <;> cases z <;> simp [presentAttrs]

omit [Env] in
theorem dupLoop_spec (what : Str) (xs : List (Str × Span)) (all : List Str) (errs : Errors) :
    ((dupLoop what xs all errs).2.toList = [] ↔
      errs.toList = [] ∧ (xs.map (·.1)).Nodup ∧ ∀ x ∈ xs.map (·.1), x ∉ all) ∧
    (∀ x, x ∈ (dupLoop what xs all errs).1 ↔ x ∈ xs.map (·.1) ∨ x ∈ all) := by
  induction xs generalizing all errs with
  | nil => simp [dupLoop]
  | cons y xs ih =>
    obtain ⟨y, sp⟩ := y
    rw [dupLoop]
    split
    · rename_i h
      have h : y ∈ all := by simpa using h
      obtain ⟨i1, i2⟩ := ih all (errs.push sp (duplicateNameText what y))
      constructor
      · rw [i1]; simp [h]
      · intro x; rw [i2]
        simp only [List.map_cons, List.mem_cons]
        constructor
        · rintro (h | h)
          · exact .inl (.inr h)
          · exact .inr h
        · rintro ((rfl | h') | h')
          · exact .inr h
          · exact .inl h'
          · exact .inr h'
    · rename_i h
      have h : y ∉ all := by simpa using h
      obtain ⟨i1, i2⟩ := ih (y :: all) errs
      constructor
      · rw [i1]
        simp only [List.map_cons, List.nodup_cons, List.mem_cons, forall_eq_or_imp]
        constructor
        · rintro ⟨h1, h2, h3⟩
          exact ⟨h1, ⟨fun hm => h3 y hm (.inl rfl), h2⟩, h, fun x hx ha => h3 x hx (.inr ha)⟩
        · rintro ⟨h1, ⟨h2, h3⟩, _, h4⟩
          refine ⟨h1, h3, fun x hx => ?_⟩
          rintro (rfl | ha)
          · exact h2 hx
          · exact h4 x hx ha
      · intro x; rw [i2]
        simp only [List.map_cons, List.mem_cons]
        constructor
        · rintro (h | rfl | h)
          · exact .inl (.inr h)
          · exact .inl (.inl rfl)
          · exact .inr h
        · rintro ((rfl | h') | h')
          · exact .inr (.inl rfl)
          · exact .inl h'
          · exact .inr (.inr h')

omit [Env] in
theorem dupLoop_mono (what : Str) (xs : List (Str × Span)) (all : List Str) (errs : Errors) :
    errs.toList <+: (dupLoop what xs all errs).2.toList := by
  induction xs generalizing all errs with
  | nil => exact List.prefix_refl _
  | cons y xs ih =>
    rw [dupLoop]
    split
    · refine List.IsPrefix.trans ?_ (ih _ _)
      rw [Errors.toList_push]; exact List.prefix_append _ _
    · exact ih _ _

omit [Env] in
/-- A name that was seen before is reported. -/
theorem dupLoop_mem (what : Str) {xs pre post : List (Str × Span)} {x : Str} {sp : Span} (all : List Str)
    (errs : Errors) (hx : xs = pre ++ (x, sp) :: post) (hd : x ∈ pre.map (·.1) ∨ x ∈ all) :
    ⟨sp, duplicateNameText what x⟩ ∈ (dupLoop what xs all errs).2.toList := by
  subst hx
  induction pre generalizing all errs with
  | nil =>
    have h : x ∈ all := by simpa using hd
    rw [List.nil_append, dupLoop, if_pos (by simpa using h)]
    refine (dupLoop_mono _ _ _ _).subset ?_
    simp
  | cons y pre ih =>
    obtain ⟨y, sp'⟩ := y
    rw [List.cons_append, dupLoop]
    split
    · rename_i h
      refine ih _ _ ?_
      rcases hd with hd | hd
      · rcases List.mem_cons.1 hd with rfl | hd
        · exact .inr (by simpa using h)
        · exact .inl hd
      · exact .inr hd
    · refine ih _ _ ?_
      rcases hd with hd | hd
      · rcases List.mem_cons.1 hd with rfl | hd
        · exact .inr (by simp)
        · exact .inl hd
      · exact .inr (by simp [hd])

omit [Env] in
theorem containerLoop_spec (f : FieldDecl) (seen : Bool) (errs : Errors) :
    ((containerLoop f seen errs).2.toList = [] ↔
      errs.toList = [] ∧ ¬ (seen = true ∧ f.container.isSome = true)) ∧
    (containerLoop f seen errs).1 = (seen || f.container.isSome) ∧
    errs.toList <+: (containerLoop f seen errs).2.toList := by
  unfold containerLoop
  cases f.container with
  | none => simp
  | some c => cases seen <;> simp

/-- The names of a list of declared fields. -/
def declNames (fs : List FieldDecl) : List Str := fs.flatMap fun f => f.idents.map (·.1)

omit [Env] in
theorem structLoops_nil (fs : List FieldDecl) (all : List Str) (seen : Bool) (errs : Errors) :
    (structLoops fs all seen errs).toList = [] ↔ errs.toList = [] ∧ (declNames fs).Nodup ∧
      (∀ x ∈ declNames fs, x ∉ all) ∧ fs.countP (·.container.isSome) + seen.toNat ≤ 1 := by
  induction fs generalizing all seen errs with
  | nil => cases seen <;> simp [structLoops, declNames]
  | cons f fs ih =>
    rw [structLoops]
    obtain ⟨d1, d2⟩ := dupLoop_spec (txt "field") f.idents all errs
    generalize hD : dupLoop (txt "field") f.idents all errs = D at d1 d2
    obtain ⟨all', e1⟩ := D
    obtain ⟨c1, c2, -⟩ := containerLoop_spec f seen e1
    simp only at c1 c2 d1 d2 ⊢
    rw [ih, c1, d1, c2]
    have hn : declNames (f :: fs) = f.idents.map (·.1) ++ declNames fs := by simp [declNames]
    rw [hn, List.nodup_append, List.countP_cons]
    simp only [d2, List.mem_append]
    have hc : (List.countP (fun x => x.container.isSome) fs + (seen || f.container.isSome).toNat ≤ 1 ∧
        ¬ (seen = true ∧ f.container.isSome = true)) ↔
        List.countP (fun x => x.container.isSome) fs + (if f.container.isSome = true then 1 else 0) +
          seen.toNat ≤ 1 := by
      cases seen <;> cases f.container <;> simp
    rw [← hc]
    constructor
    · rintro ⟨⟨⟨h1, h2, h3⟩, h4⟩, h5, h6, h7⟩
      refine ⟨h1, ⟨h2, h5, fun a ha b hb hab => ?_⟩, ?_, h7, h4⟩
      · subst hab; exact h6 a hb (.inl ha)
      · rintro x (hx | hx) ha
        · exact h3 x hx ha
        · exact h6 x hx (.inr ha)
    · rintro ⟨h1, ⟨h2, h5, h6⟩, h3, h7, h4⟩
      refine ⟨⟨⟨h1, h2, fun x hx => h3 x (.inl hx)⟩, h4⟩, h5, fun x hx => ?_, h7⟩
      rintro (hx' | ha)
      · exact h6 x hx' x hx rfl
      · exact h3 x (.inr hx) ha

omit [Env] in
theorem structLoops_mono (fs : List FieldDecl) (all : List Str) (seen : Bool) (errs : Errors) :
    errs.toList <+: (structLoops fs all seen errs).toList := by
  induction fs generalizing all seen errs with
  | nil => exact List.prefix_refl _
  | cons f fs ih =>
    rw [structLoops]
    exact ((dupLoop_mono _ _ _ _).trans (containerLoop_spec f seen _).2.2).trans (ih _ _ _)

omit [Env] in
theorem structLoops_mem {fs : List FieldDecl} {pre post : List (Str × Span)} {x : Str} {sp : Span}
    (all : List Str) (seen : Bool) (errs : Errors)
    (hx : fs.flatMap (·.idents) = pre ++ (x, sp) :: post) (hd : x ∈ pre.map (·.1) ∨ x ∈ all) :
    ⟨sp, duplicateNameText (txt "field") x⟩ ∈ (structLoops fs all seen errs).toList := by
  induction fs generalizing all seen errs pre with
  | nil => simp at hx
  | cons f fs ih =>
    rw [structLoops]
    rw [List.flatMap_cons] at hx
    rcases List.append_eq_append_iff.1 hx with ⟨as, h1, h2⟩ | ⟨bs, h1, h2⟩
    · refine ih (pre := as) _ _ _ h2 ?_
      rw [(dupLoop_spec (txt "field") f.idents all errs).2]
      rw [h1, List.map_append, List.mem_append] at hd
      rcases hd with (hd | hd) | hd
      · exact .inr (.inl hd)
      · exact .inl hd
      · exact .inr (.inr hd)
    · cases bs with
      | nil =>
        refine ih (pre := []) _ _ _ (by simpa using h2.symm) ?_
        rw [(dupLoop_spec (txt "field") f.idents all errs).2]
        rw [List.append_nil] at h1
        rw [h1]; exact .inr hd
      | cons b bs =>
        obtain ⟨rfl, -⟩ := List.cons.inj h2
        refine (structLoops_mono _ _ _ _).subset ?_
        refine (containerLoop_spec f seen _).2.2.subset ?_
        exact dupLoop_mem _ _ _ h1 hd

/-- Fields that take a position of a tuple structure. -/
def FieldDecl.positional (f : FieldDecl) : Bool := f.isParsable && !f.isFlat

theorem gapLoop_mono (what : Str) (fs : List FieldDecl) (gap : Bool) (errs : Errors) :
    errs.toList <+: (gapLoop what fs gap errs).toList := by
  induction fs generalizing gap errs with
  | nil => exact List.prefix_refl _
  | cons f fs ih =>
    rw [gapLoop]
    split
    · split
      · refine List.IsPrefix.trans ?_ (ih _ _)
        split
        · rw [Errors.toList_push]; exact List.prefix_append _ _
        · exact List.prefix_refl _
      · exact ih _ _
    · exact ih _ _

theorem gapLoop_nil (what : Str) (fs : List FieldDecl) (gap : Bool) (errs : Errors) :
    (gapLoop what fs gap errs).toList = [] ↔ errs.toList = [] ∧
      (gap = true → ∀ f ∈ fs, f.positional = true → f.default = none) ∧
      fs.Pairwise fun f g => f.positional = true → g.positional = true → f.default = none → g.default = none := by
  induction fs generalizing gap errs with
  | nil => simp [gapLoop]
  | cons f fs ih =>
    rw [gapLoop]
    show (if f.positional = true then _ else _ : Errors).toList = [] ↔ _
    by_cases hp : f.positional = true
    · rw [if_pos hp]
      cases hd : f.default with
      | some d =>
        simp only [ih, List.pairwise_cons, List.mem_cons, forall_eq_or_imp, hd]
        cases gap <;> simp [hp]
      | none =>
        simp only [ih, List.pairwise_cons, List.mem_cons, forall_eq_or_imp, hd]
        cases gap
        · simp [hp]
        · simp only [hp, forall_const, true_and]
          constructor
          · rintro ⟨h1, h2, h3⟩; exact ⟨h1, h2, h2, h3⟩
          · rintro ⟨h1, h2, _, h3⟩; exact ⟨h1, h2, h3⟩
    · rw [if_neg hp]
      simp [ih, List.pairwise_cons, hp]

/-! ## Names -/

/-- What holds of the names collected for a field or variant at every point. -/
structure NamesInv (own : Option Str) (n : Names) (errs : Errors) : Prop where
  nodup : (n.idents.map (·.1)).Nodup
  own : ∀ o, own = some o → o ∉ n.idents.map (·.1)
  none : n.rename.isNone = true → n.aliasSpan.isNone = true → n.idents = []
  some : n.rename.isSome = true → n.idents ≠ []
  failed : n.rename.isParseError = true → errs.toList ≠ []
  alias : n.aliasSpan.isParseError = false

omit [Env] in
theorem NamesInv.init (own : Option Str) (errs : Errors) : NamesInv own {} errs :=
  ⟨by simp, by simp, fun _ _ => rfl, by simp [FieldStatus.isSome], by simp [FieldStatus.isParseError], rfl⟩

omit [Env] in
theorem NamesInv.errs {own : Option Str} {n : Names} {errs errs' : Errors} (h : NamesInv own n errs)
    (he : errs.toList <+: errs'.toList) : NamesInv own n errs' :=
  { h with failed := fun hp hn => h.failed hp (by rw [hn] at he; exact List.prefix_nil.1 he) }

/-- The errors after a second occurrence was reported. -/
def dupErrs {α : Type} (st : FieldStatus α) (name : Str) (span : Span) (errs : Errors) : Errors :=
  if st.isNone then errs else errs.push span (.duplicateAttr name)

omit [Env] in
theorem dupErrs_mono {α : Type} (st : FieldStatus α) (name : Str) (span : Span) (errs : Errors) :
    errs.toList <+: (dupErrs st name span errs).toList := by
  unfold dupErrs
  split
  · exact List.prefix_refl _
  · simp

/-- The failing outcome of `renameItem`. -/
def renameFailed (n : Names) (span : Span) (errs : Errors) (e : SynErr) (s : Stream) :
    Res Unit × (Acc Names × Stream) :=
  (.ok (), (⟨{ n with rename := if n.rename.isNone then .parseError else n.rename },
    (dupErrs n.rename (txt "rename") span errs).pushSyn e⟩, skipMetaItem s))

omit [Env] in
theorem renameItem_eq (what : Str) (own : Option Str) (span : Span) (n : Names) (errs : Errors) (s : Stream) :
    renameItem what own span (⟨n, errs⟩, s) =
      match identSpDict.named (txt "rename") span s with
      | (.panic, s') => (.panic, (⟨n, dupErrs n.rename (txt "rename") span errs⟩, s'))
      | (.err e, s') => renameFailed n span errs e s'
      | (.ok name, s') =>
        if own = some name.1 then renameFailed n span errs (.new span (ownNameText (txt "rename") what)) s'
        else if (n.idents.map (·.1)).contains name.1 then
          renameFailed n span errs (.new span (aliasGivenText name.1)) s'
        else (.ok (), (⟨{ n with idents := name :: n.idents,
                                 rename := if n.rename.isNone then .some span else n.rename },
          dupErrs n.rename (txt "rename") span errs⟩, s')) := by
  unfold renameItem FieldStatus.parseNamedItemWith M.map
  dsimp only
  generalize hx : identSpDict.named (txt "rename") span s = x
  obtain ⟨r, s'⟩ := x
  cases r with
  | panic => rfl
  | err e => rfl
  | ok name =>
    dsimp only
    by_cases h1 : own = some name.1
    · simp only [if_pos h1]; rfl
    · by_cases h2 : (n.idents.map (·.1)).contains name.1 = true
      · simp only [if_neg h1, if_pos h2]; rfl
      · simp only [if_neg h1, if_neg h2]; rfl

omit [Env] in
theorem renameFailed_inv {own : Option Str} {n : Names} {errs : Errors} (h : NamesInv own n errs) (span : Span)
    (e : SynErr) (s : Stream) :
    NamesInv own (renameFailed n span errs e s).2.1.val (renameFailed n span errs e s).2.1.errs ∧
      errs.toList <+: (renameFailed n span errs e s).2.1.errs.toList := by
  unfold renameFailed
  dsimp only
  refine ⟨{ h with none := fun h1 => ?_, some := fun h1 => ?_, failed := fun _ => by simp [SynErr.toList] },
    (dupErrs_mono n.rename (txt "rename") span errs).trans (by simp)⟩
  · dsimp only at h1
    split at h1
    · simp [FieldStatus.isNone] at h1
    · exact h.none h1
  · dsimp only at h1
    split at h1
    · simp [FieldStatus.isSome] at h1
    · exact h.some h1

omit [Env] in
theorem renameItem_inv (what : Str) (own : Option Str) (span : Span) (st : Acc Names × Stream)
    (h : NamesInv own st.1.val st.1.errs) :
    NamesInv own (renameItem what own span st).2.1.val (renameItem what own span st).2.1.errs ∧
      st.1.errs.toList <+: (renameItem what own span st).2.1.errs.toList := by
  obtain ⟨⟨n, errs⟩, s⟩ := st
  have hdup := dupErrs_mono n.rename (txt "rename") span errs
  rw [renameItem_eq]
  split
  · exact ⟨h.errs hdup, hdup⟩
  · exact renameFailed_inv h ..
  · rename_i name s' hx
    split
    · exact renameFailed_inv h ..
    · rename_i h1
      split
      · exact renameFailed_inv h ..
      · rename_i h2
        refine ⟨?_, hdup⟩
        have h2 : name.1 ∉ n.idents.map (·.1) := by simpa using h2
        refine ⟨List.nodup_cons.2 ⟨h2, h.nodup⟩, fun o ho => ?_, fun h3 => ?_, fun _ => by simp, fun h3 => ?_,
          h.alias⟩
        · simp only [List.map_cons, List.mem_cons, not_or]
          exact ⟨fun he => h1 (by rw [ho, he]), h.own o ho⟩
        · exfalso
          dsimp only at h3
          split at h3
          · simp [FieldStatus.isNone] at h3
          · rename_i h4; exact h4 h3
        · dsimp only at h3 ⊢
          split at h3
          · simp [FieldStatus.isParseError] at h3
          · rename_i hn
            simp [dupErrs, hn]

omit [Env] in
theorem aliasItem_inv (what : Str) (own : Option Str) (span : Span) (st : Acc Names × Stream)
    (h : NamesInv own st.1.val st.1.errs) :
    NamesInv own (aliasItem what own span st).2.1.val (aliasItem what own span st).2.1.errs ∧
      st.1.errs.toList <+: (aliasItem what own span st).2.1.errs.toList := by
  obtain ⟨⟨n, errs⟩, s⟩ := st
  unfold aliasItem stepPush
  dsimp only
  generalize hx : identSpDict.named (txt "alias") span s = x
  obtain ⟨r, s'⟩ := x
  cases r with
  | panic => exact ⟨h, List.prefix_refl _⟩
  | err e =>
    have : errs.toList <+: (errs.pushSyn e).toList := by simp
    exact ⟨h.errs this, this⟩
  | ok name =>
    dsimp only
    by_cases h1 : own = Option.some name.1
    · simp only [if_pos h1]
      have : errs.toList <+: (errs.push span (ownNameText (txt "alias") what)).toList := by simp
      exact ⟨h.errs this, this⟩
    · simp only [if_neg h1]
      by_cases h2 : (n.idents.map (·.1)).contains name.1 = true
      · simp only [if_pos h2]
        have : errs.toList <+: (errs.push span (duplicateAliasText name.1)).toList := by simp
        exact ⟨h.errs this, this⟩
      · simp only [if_neg h2]
        have h2 : name.1 ∉ n.idents.map (·.1) := by simpa using h2
        refine ⟨⟨?_, fun o ho => ?_, fun _ h4 => ?_, fun _ => by simp, h.failed, ?_⟩, List.prefix_refl _⟩
        · rw [List.map_append, List.nodup_append]
          exact ⟨h.nodup, by simp, fun a ha b hb hab => h2 (by
            simp at hb; rw [← hb, ← hab]; exact ha)⟩
        · rw [List.map_append, List.mem_append, not_or]
          exact ⟨h.own o ho, fun he => h1 (by rw [ho]; simpa using he)⟩
        · exfalso
          dsimp only at h4
          split at h4
          · simp [FieldStatus.isNone] at h4
          · rename_i h5; exact h5 h4
        · dsimp only
          split
          · rfl
          · exact h.alias

omit [Env] in
theorem renameItem_mono (what : Str) (own : Option Str) (span : Span) (st : Acc Names × Stream) :
    st.1.errs.toList <+: (renameItem what own span st).2.1.errs.toList := by
  obtain ⟨⟨n, errs⟩, s⟩ := st
  have hd := dupErrs_mono n.rename (txt "rename") span errs
  rw [renameItem_eq]
  have hf : ∀ e s', errs.toList <+: (renameFailed n span errs e s').2.1.errs.toList := by
    intro e s'
    exact hd.trans (by simp [renameFailed])
  split
  · exact hd
  · exact hf _ _
  · split
    · exact hf _ _
    · split
      · exact hf _ _
      · exact hd

omit [Env] in
theorem aliasItem_mono (what : Str) (own : Option Str) (span : Span) (st : Acc Names × Stream) :
    st.1.errs.toList <+: (aliasItem what own span st).2.1.errs.toList := by
  obtain ⟨⟨n, errs⟩, s⟩ := st
  unfold aliasItem stepPush
  dsimp only
  generalize identSpDict.named (txt "alias") span s = x
  obtain ⟨r, s'⟩ := x
  cases r with
  | panic => exact List.prefix_refl _
  | err e => simp
  | ok name =>
    dsimp only
    split
    · simp
    · split <;> simp

/-! ## Single attributes -/

omit [Env] in
theorem slotItem_eq {κ α : Type} (get : κ → FieldStatus α) (put : FieldStatus α → κ → κ) (func : M Stream α)
    (name : Str) (span : Span) (k : κ) (errs : Errors) (s : Stream) :
    slotItem get put func name span (⟨k, errs⟩, s) =
      match func s with
      | (.panic, s') => (.panic, (⟨put (get k) k, dupErrs (get k) name span errs⟩, s'))
      | (.err e, s') => (.ok (), (⟨put (if (get k).isNone then .parseError else get k) k,
          (dupErrs (get k) name span errs).pushSyn e⟩, skipMetaItem s'))
      | (.ok v, s') => (.ok (), (⟨put (if (get k).isNone then .some v else get k) k,
          dupErrs (get k) name span errs⟩, s')) := by
  unfold slotItem FieldStatus.parseNamedItemWith
  dsimp only
  generalize func s = x
  obtain ⟨r, s'⟩ := x
  cases r <;> rfl

omit [Env] in
theorem slotItem_cases {κ α : Type} (get : κ → FieldStatus α) (put : FieldStatus α → κ → κ) (func : M Stream α)
    (name : Str) (span : Span) (st : Acc κ × Stream) :
    st.1.errs.toList <+: (slotItem get put func name span st).2.1.errs.toList ∧
    ∃ x, (slotItem get put func name span st).2.1.val = put x st.1.val ∧
      (x = get st.1.val ∨
        (x.isParseError = true ∧ (slotItem get put func name span st).2.1.errs.toList ≠ []) ∨
        ∃ v s s', func s = (.ok v, s') ∧ x = .some v) := by
  obtain ⟨⟨k, errs⟩, s⟩ := st
  have hd := dupErrs_mono (get k) name span errs
  rw [slotItem_eq]
  split
  · exact ⟨hd, _, rfl, .inl rfl⟩
  · refine ⟨hd.trans (by simp), _, rfl, ?_⟩
    split
    · exact .inr (.inl ⟨rfl, by simp [SynErr.toList]⟩)
    · exact .inl rfl
  · rename_i v s' hx
    refine ⟨hd, _, rfl, ?_⟩
    split
    · exact .inr (.inr ⟨v, s, s', hx, rfl⟩)
    · exact .inl rfl

omit [Env] in
theorem slotItem_mono {κ α : Type} (get : κ → FieldStatus α) (put : FieldStatus α → κ → κ) (func : M Stream α)
    (name : Str) (span : Span) (st : Acc κ × Stream) :
    st.1.errs.toList <+: (slotItem get put func name span st).2.1.errs.toList :=
  (slotItem_cases get put func name span st).1

omit [Env] in
theorem slotItem_val {κ α : Type} (get : κ → FieldStatus α) (put : FieldStatus α → κ → κ) (func : M Stream α)
    (name : Str) (span : Span) (st : Acc κ × Stream) :
    ∃ x, (slotItem get put func name span st).2.1.val = put x st.1.val :=
  (slotItem_cases get put func name span st).2.imp fun _ h => h.1

omit [Env] in
theorem refuse_mono {κ : Type} (text : Text) (span : Span) (st : Acc κ × Stream) :
    st.1.errs.toList <+: (refuse text span st).2.1.errs.toList ∧ (refuse text span st).2.1.val = st.1.val :=
  ⟨by simp [refuse], rfl⟩

theorem checkUnknownItem_mono {κ : Type} (path : Str) (span : Span) (names : List Str) (st : Acc κ × Stream) :
    st.1.errs.toList <+: (checkUnknownItem path span names st).2.1.errs.toList ∧
      (checkUnknownItem path span names st).2.1.val = st.1.val := by
  refine ⟨?_, rfl⟩
  unfold checkUnknownItem checkUnknownAttribute
  dsimp only
  split <;> simp

omit [Env] in
theorem pushItem_mono {κ α : Type} (item : M Stream α) (put : κ → α → κ) (st : Acc κ × Stream) :
    st.1.errs.toList <+: (pushItem item put st).2.1.errs.toList ∧
      ((pushItem item put st).2.1.val = st.1.val ∨ ∃ a, (pushItem item put st).2.1.val = put st.1.val a) := by
  unfold pushItem stepPush
  dsimp only
  split
  · exact ⟨List.prefix_refl _, .inr ⟨_, rfl⟩⟩
  · exact ⟨by simp, .inl rfl⟩
  · exact ⟨List.prefix_refl _, .inl rfl⟩

/-! ## Fields -/

/-- What holds at every point while the attributes of a field are read. -/
structure FieldInv (f : FieldIn) (acc : Acc FieldSt) : Prop where
  names : NamesInv (f.ident.map (·.1)) acc.val.names acc.errs
  tuple : f.ident = none → acc.val.names = {} ∧ acc.val.append = .none ∧ acc.val.rest = .none

theorem fieldStep_inv (lib : SynLib) (f : FieldIn) (path : Str) (span : Span) (st : Acc FieldSt × Stream)
    (h : FieldInv f st.1) : FieldInv f (fieldStep lib f path span st).2.1 := by
  have slot : ∀ {α : Type} (get : FieldSt → FieldStatus α) (put : FieldStatus α → FieldSt → FieldSt)
      (func : M Stream α) (name : Str), (∀ x k, (put x k).names = k.names) →
      (∀ x k, f.ident = none → (put x k).append = k.append ∧ (put x k).rest = k.rest) →
      FieldInv f (slotItem get put func name span st).2.1 := by
    intro α get put func name h1 h2
    obtain ⟨hm, x, hx, -⟩ := slotItem_cases get put func name span st
    refine ⟨?_, fun hn => ?_⟩
    · rw [hx, h1]; exact h.names.errs hm
    · rw [hx, h1, (h2 _ _ hn).1, (h2 _ _ hn).2]; exact h.tuple hn
  have same : ∀ acc : Acc FieldSt, st.1.errs.toList <+: acc.errs.toList → acc.val = st.1.val → FieldInv f acc := by
    intro acc h1 h2
    exact ⟨by rw [h2]; exact h.names.errs h1, by rw [h2]; exact h.tuple⟩
  have push : ∀ {α : Type} (item : M Stream α) (put : FieldSt → α → FieldSt),
      (∀ k a, (put k a).names = k.names ∧ (put k a).append = k.append ∧ (put k a).rest = k.rest) →
      FieldInv f (pushItem item put st).2.1 := by
    intro α item put h1
    obtain ⟨hm, hx | ⟨a, hx⟩⟩ := pushItem_mono item put st
    · exact same _ hm hx
    · refine ⟨?_, fun hn => ?_⟩
      · rw [hx, (h1 _ _).1]; exact h.names.errs hm
      · rw [hx, (h1 _ _).1, (h1 _ _).2.1, (h1 _ _).2.2]; exact h.tuple hn
  cases ha : fieldArm path <;> simp only [fieldStep, ha]
  · exact slot _ _ _ _ (fun _ _ => rfl) (fun _ _ _ => ⟨rfl, rfl⟩)
  · by_cases hn : f.ident.isNone = true
    · rw [if_pos hn]; exact same _ (refuse_mono _ _ _).1 (refuse_mono _ _ _).2
    · rw [if_neg hn]
      exact slot _ _ _ _ (fun _ _ => rfl) (fun _ _ hi => absurd hi (by simpa using hn))
  · by_cases hn : f.ident.isNone = true
    · rw [if_pos hn]; exact same _ (refuse_mono _ _ _).1 (refuse_mono _ _ _).2
    · rw [if_neg hn]
      exact slot _ _ _ _ (fun _ _ => rfl) (fun _ _ hi => absurd hi (by simpa using hn))
  · exact slot _ _ _ _ (fun _ _ => rfl) (fun _ _ _ => ⟨rfl, rfl⟩)
  · exact slot _ _ _ _ (fun _ _ => rfl) (fun _ _ _ => ⟨rfl, rfl⟩)
  · by_cases hn : f.ident.isNone = true
    · rw [if_pos hn]; exact same _ (by simp [report]) rfl
    · rw [if_neg hn]
      exact ⟨(renameItem_inv _ _ span (⟨st.1.val.names, st.1.errs⟩, st.2) h.names).1,
        fun hi => absurd hi (by simpa using hn)⟩
  · by_cases hn : f.ident.isNone = true
    · rw [if_pos hn]; exact same _ (by simp [report]) rfl
    · rw [if_neg hn]
      exact ⟨(aliasItem_inv _ _ span (⟨st.1.val.names, st.1.errs⟩, st.2) h.names).1,
        fun hi => absurd hi (by simpa using hn)⟩
  · exact slot _ _ _ _ (fun _ _ => rfl) (fun _ _ _ => ⟨rfl, rfl⟩)
  · exact slot _ _ _ _ (fun _ _ => rfl) (fun _ _ _ => ⟨rfl, rfl⟩)
  · exact push _ _ fun _ _ => ⟨rfl, rfl, rfl⟩
  · exact push _ _ fun _ _ => ⟨rfl, rfl, rfl⟩
  · exact same _ (checkUnknownItem_mono _ _ _ _).1 (checkUnknownItem_mono _ _ _ _).2

theorem fieldChecks_nil (k : FieldSt) (errs : Errors) :
    (fieldChecks k errs).toList = [] ↔ errs.toList = [] ∧
      ¬ (k.flatten.isSome = true ∧ k.append.isSome = true) ∧ ¬ (k.flatten.isSome = true ∧ k.rest.isSome = true) ∧
      ¬ (k.append.isSome = true ∧ k.rest.isSome = true) ∧
      ¬ (k.container.isSome = true ∧ k.flatten.isSome = true) ∧
      ¬ (k.container.isSome = true ∧ k.names.rename.isSome = true) ∧
      ¬ (k.container.isSome = true ∧ k.with_.isSome = true) ∧
      ¬ (k.container.isSome = true ∧ k.names.aliasSpan.isSome = true) ∧
      ¬ (k.default.isSome = true ∧ k.flatten.isSome = true) ∧
      ¬ (k.flatten.isSome = true ∧ k.names.rename.isSome = true) ∧
      ¬ (k.flatten.isSome = true ∧ k.names.aliasSpan.isSome = true) := by
  have hi : ∀ {α : Type} (x : FieldStatus α), x.intoOption.isSome = x.isSome := by
    intro α x; cases x <;> rfl
  unfold fieldChecks
  rw [onlyOne_foldl_nil]
  simp only [List.forall_mem_cons, present_pair, present_triple, Option.isSome_map, hi]
  simp only [and_assoc]
  simp

/-- How `Field::parse_attributes` accepts. -/
theorem FieldIn.read_ok {lib : SynLib} {f : FieldIn} {d : FieldDecl} (h : f.read lib = .ok d) :
    ∃ acc : Acc FieldSt, FieldInv f acc ∧ acc.errs.toList = [] ∧ (fieldChecks acc.val acc.errs).toList = [] ∧
      d = fieldDone f acc.val := by
  have hl : ∀ (ps : List (Str × Span)) l, (fieldBody lib f l).2.length = l.length :=
    fun _ l => collectStruct_length _ _ _ l
  rw [FieldIn.read, c19_attr_tokens _ _ hl] at h
  obtain ⟨ss, ss', -, h⟩ := h
  obtain ⟨acc, h1, h2, h3, h4⟩ := collectStruct_ok (fun acc h => ((fieldChecks_nil _ _).1 h).1) h
  refine ⟨acc, ?_, h2, h3, h4⟩
  have := parseStruct_inv (P := FieldInv f) (fun p sp st => fieldStep_inv lib f p sp st) ⟨{}, Errors.new⟩ ss
    ⟨NamesInv.init _ _, fun _ => ⟨rfl, rfl, rfl⟩⟩
  rw [h1] at this
  exact this

/-- The fields that are read, in order. -/
theorem readFields_ok {lib : SynLib} {fs : List FieldIn} {errs errs' : Errors} {ds : List FieldDecl}
    (h : readFields lib fs errs = .ok (errs', ds)) (hn : errs'.toList = []) :
    errs.toList = [] ∧ fs.map (FieldIn.read lib) = ds.map .ok := by
  induction fs generalizing errs ds with
  | nil =>
    simp only [readFields, Res.ok.injEq, Prod.mk.injEq] at h
    obtain ⟨rfl, rfl⟩ := h
    exact ⟨hn, rfl⟩
  | cons f fs ih =>
    rw [readFields] at h
    cases hf : f.read lib with
    | ok d =>
      rw [hf] at h
      dsimp only at h
      cases hr : readFields lib fs errs with
      | ok x =>
        rw [hr] at h
        simp only [Res.map, Res.ok.injEq, Prod.mk.injEq] at h
        obtain ⟨h1, rfl⟩ := h
        have := ih (errs := errs) (ds := x.2) (by rw [hr, ← h1])
        exact ⟨this.1, by simp [hf, this.2]⟩
      | err e => rw [hr] at h; simp [Res.map] at h
      | panic => rw [hr] at h; simp [Res.map] at h
    | err e =>
      rw [hf] at h
      have := (ih h).1
      simp [SynErr.toList] at this
    | panic => rw [hf] at h; simp at h

theorem readFields_ok_of {lib : SynLib} {fs : List FieldIn} {ds : List FieldDecl} (errs : Errors)
    (h : fs.map (FieldIn.read lib) = ds.map .ok) : readFields lib fs errs = .ok (errs, ds) := by
  induction fs generalizing ds with
  | nil => cases ds with
    | nil => rfl
    | cons d ds => simp at h
  | cons f fs ih => cases ds with
    | nil => simp at h
    | cons d ds =>
      simp only [List.map_cons, List.cons.injEq] at h
      rw [readFields, h.1]
      dsimp only
      rw [ih h.2]; rfl

/-! ## Structures -/

/-- What holds at every point while the attributes of a structure are read. -/
structure StructInv (shape : Shape) (fields : List FieldDecl) (acc : Acc StructSt) : Prop where
  transparent : acc.val.transparent.isSome = true → transparentRefusal (txt "struct") fields = none
  default : acc.val.default.isParseError = true → acc.errs.toList ≠ []
  unit : shape = .unit → acc.val.default = .none

omit [Env] in
theorem transparentItem_ok {α : Type} {what : Str} {fields : List FieldDecl} {span : Span} {func : M Stream α}
    {s s' : Stream} {v : α} (h : transparentItem what fields span func s = (.ok v, s')) :
    transparentRefusal what fields = none := by
  cases hr : transparentRefusal what fields with
  | none => rfl
  | some m =>
    simp only [transparentItem, hr] at h
    simp [M.fail] at h

omit [Env] in
theorem ne_nil_of_prefix {α : Type} {a b : List α} (h : a <+: b) (ha : a ≠ []) : b ≠ [] := by
  rintro rfl; exact ha (List.prefix_nil.1 h)

theorem structStep_inv (lib : SynLib) (shape : Shape) (fields : List FieldDecl) (path : Str) (span : Span)
    (st : Acc StructSt × Stream) (h : StructInv shape fields st.1) :
    StructInv shape fields (structStep lib shape fields path span st).2.1 := by
  have same : ∀ acc : Acc StructSt, st.1.errs.toList <+: acc.errs.toList →
      acc.val.transparent = st.1.val.transparent → acc.val.default = st.1.val.default →
      StructInv shape fields acc := by
    intro acc h1 h2 h3
    exact ⟨by rw [h2]; exact h.transparent, fun hp => ne_nil_of_prefix h1 (h.default (by rwa [← h3])),
      fun hs => by rw [h3]; exact h.unit hs⟩
  have slot : ∀ {α : Type} (get : StructSt → FieldStatus α) (put : FieldStatus α → StructSt → StructSt)
      (func : M Stream α) (name : Str), (∀ x k, (put x k).transparent = k.transparent) →
      (∀ x k, (put x k).default = k.default) →
      StructInv shape fields (slotItem get put func name span st).2.1 := by
    intro α get put func name h1 h2
    obtain ⟨hm, x, hx, -⟩ := slotItem_cases get put func name span st
    exact same _ hm (by rw [hx, h1]) (by rw [hx, h2])
  have push : ∀ {α : Type} (item : M Stream α) (put : StructSt → α → StructSt),
      (∀ k a, (put k a).transparent = k.transparent ∧ (put k a).default = k.default) →
      StructInv shape fields (pushItem item put st).2.1 := by
    intro α item put h1
    obtain ⟨hm, hx | ⟨a, hx⟩⟩ := pushItem_mono item put st
    · exact same _ hm (by rw [hx]) (by rw [hx])
    · exact same _ hm (by rw [hx, (h1 _ _).1]) (by rw [hx, (h1 _ _).2])
  cases ha : structArm path <;> simp only [structStep, ha]
  · obtain ⟨hm, x, hx, hc⟩ := slotItem_cases (κ := StructSt) (·.transparent)
      (fun st k => { k with transparent := st })
      (transparentItem (txt "struct") fields span (transparentDict.named path span)) (txt "transparent") span st
    refine ⟨fun hs => ?_, fun hp => ?_, fun hs => ?_⟩
    · rw [hx] at hs
      rcases hc with rfl | ⟨hp, -⟩ | ⟨v, s, s', hv, -⟩
      · exact h.transparent hs
      · dsimp only at hs; cases x <;> simp [FieldStatus.isParseError, FieldStatus.isSome] at hp hs
      · exact transparentItem_ok hv
    · rw [hx] at hp; exact ne_nil_of_prefix hm (h.default hp)
    · rw [hx]; exact h.unit hs
  · by_cases hn : shape = .unnamed
    · rw [if_pos hn]; exact same _ (refuse_mono _ _ _).1 rfl rfl
    · rw [if_neg hn]; exact slot _ _ _ _ (fun _ _ => rfl) (fun _ _ => rfl)
  · by_cases hn : shape = .unit
    · rw [if_pos hn]; exact same _ (refuse_mono _ _ _).1 rfl rfl
    · rw [if_neg hn]
      obtain ⟨hm, x, hx, hc⟩ := slotItem_cases (κ := StructSt) (·.default)
        (fun st k => { k with default := st }) (defaultDict.named (txt "default") span) (txt "default") span st
      refine ⟨fun hs => ?_, fun hp => ?_, fun hs => absurd hs hn⟩
      · rw [hx] at hs; exact h.transparent hs
      · rcases hc with rfl | ⟨-, he⟩ | ⟨v, s, s', -, rfl⟩
        · rw [hx] at hp; exact ne_nil_of_prefix hm (h.default hp)
        · exact he
        · rw [hx] at hp; simp [FieldStatus.isParseError] at hp
  · exact slot _ _ _ _ (fun _ _ => rfl) (fun _ _ => rfl)
  · exact push _ _ fun _ _ => ⟨rfl, rfl⟩
  · exact push _ _ fun _ _ => ⟨rfl, rfl⟩
  · exact same _ (checkUnknownItem_mono _ _ _ _).1 rfl rfl

theorem structStep_mono (lib : SynLib) (shape : Shape) (fields : List FieldDecl) (path : Str) (span : Span)
    (st : Acc StructSt × Stream) :
    st.1.errs.toList <+: (structStep lib shape fields path span st).2.1.errs.toList := by
  cases ha : structArm path <;> simp only [structStep, ha]
  · exact slotItem_mono ..
  · split
    · exact (refuse_mono _ _ _).1
    · exact slotItem_mono ..
  · split
    · exact (refuse_mono _ _ _).1
    · exact slotItem_mono ..
  · exact slotItem_mono ..
  · exact (pushItem_mono ..).1
  · exact (pushItem_mono ..).1
  · exact (checkUnknownItem_mono ..).1

theorem structDone_mono (shape : Shape) (fields : List FieldDecl) (acc : Acc StructSt) :
    acc.errs.toList <+: (structDone shape fields acc).1.toList := by
  unfold structDone
  dsimp only
  split
  · exact (structLoops_mono _ _ _ _).trans (gapLoop_mono _ _ _ _)
  · exact structLoops_mono _ _ _ _

theorem structDone_nil (shape : Shape) (fields : List FieldDecl) (acc : Acc StructSt) :
    (structDone shape fields acc).1.toList = [] ↔ acc.errs.toList = [] ∧
      (declNames (structDone shape fields acc).2.fields).Nodup ∧
      (structDone shape fields acc).2.fields.countP (·.container.isSome) ≤ 1 ∧
      (shape = .unnamed → (structDone shape fields acc).2.fields.Pairwise fun f g =>
        f.positional = true → g.positional = true → g.default = none → f.default = none) := by
  unfold structDone
  dsimp only
  generalize (if acc.val.default.isNone = true then List.map fillSkipped fields else fields) = fs
  by_cases hs : shape = .unnamed
  · rw [if_pos hs, gapLoop_nil, structLoops_nil, List.pairwise_reverse]
    simp only [hs, forall_const, Bool.toNat_false, Nat.add_zero, Bool.false_eq_true, false_implies,
      true_and, List.not_mem_nil, not_false_eq_true, implies_true, and_assoc]
    constructor
    · rintro ⟨h1, h2, h3, h4⟩
      exact ⟨h1, h2, h3, h4.imp fun h a b c => h b a c⟩
    · rintro ⟨h1, h2, h3, h4⟩
      exact ⟨h1, h2, h3, h4.imp fun h a b c => h b a c⟩
  · rw [if_neg hs, structLoops_nil]
    simp [hs]

theorem structBody_length (lib : SynLib) (d : StructIn) (l : List Stream) :
    (structBody lib d l).2.length = l.length := by
  unfold structBody
  split
  · exact collectStruct_length _ _ _ _
  · rfl
  · rfl

/-- How `Struct::parse_attributes` accepts. -/
theorem StructIn.read_ok {lib : SynLib} {d : StructIn} {r : StructDecl} (h : d.read lib = .ok r) :
    ∃ (ds : List FieldDecl) (acc : Acc StructSt), d.fields.map (FieldIn.read lib) = ds.map .ok ∧
      StructInv d.shape ds acc ∧ acc.errs.toList = [] ∧ (structDone d.shape ds acc).1.toList = [] ∧
      r = (structDone d.shape ds acc).2 := by
  have hl : ∀ (ps : List (Str × Span)) l, (structBody lib d l).2.length = l.length :=
    fun _ l => structBody_length lib d l
  rw [StructIn.read, c19_attr_tokens _ _ hl] at h
  obtain ⟨ss, ss', -, h⟩ := h
  unfold structBody at h
  split at h
  · rename_i errs ds hr
    obtain ⟨acc, h1, h2, h3, h4⟩ := collectStruct_ok (fun acc h => ((structDone_nil _ _ _).1 h).1) h
    have hinv := parseStruct_inv (P := fun acc => StructInv d.shape ds acc ∧ errs.toList <+: acc.errs.toList)
      (fun p sp st hp => ⟨structStep_inv lib d.shape ds p sp st hp.1, hp.2.trans (structStep_mono lib d.shape ds p sp st)⟩)
      ⟨{}, errs⟩ ss ⟨⟨by simp [FieldStatus.isSome], by simp [FieldStatus.isParseError], fun _ => rfl⟩,
        List.prefix_refl _⟩
    rw [h1] at hinv
    have hn : errs.toList = [] := List.prefix_nil.1 (h2 ▸ hinv.2)
    exact ⟨ds, acc, (readFields_ok hr hn).2, hinv.1, h2, h3, h4⟩
  · simp at h
  · simp at h

/-! ## Variants -/

/-- What holds at every point while the attributes of a variant are read. -/
structure VariantInv (v : VariantIn) (fields : List FieldDecl) (acc : Acc VariantSt) : Prop where
  names : NamesInv (some v.ident.1) acc.val.names acc.errs
  transparent : acc.val.transparent.isSome = true → transparentRefusal (txt "variant") fields = none

theorem variantStep_inv (v : VariantIn) (fields : List FieldDecl) (path : Str) (span : Span)
    (st : Acc VariantSt × Stream) (h : VariantInv v fields st.1) :
    VariantInv v fields (variantStep v fields path span st).2.1 ∧
      st.1.errs.toList <+: (variantStep v fields path span st).2.1.errs.toList := by
  have same : ∀ acc : Acc VariantSt, st.1.errs.toList <+: acc.errs.toList →
      acc.val.transparent = st.1.val.transparent → acc.val.names = st.1.val.names →
      VariantInv v fields acc ∧ st.1.errs.toList <+: acc.errs.toList := by
    intro acc h1 h2 h3
    exact ⟨⟨by rw [h3]; exact h.names.errs h1, by rw [h2]; exact h.transparent⟩, h1⟩
  have slot : ∀ {α : Type} (get : VariantSt → FieldStatus α) (put : FieldStatus α → VariantSt → VariantSt)
      (func : M Stream α) (name : Str), (∀ x k, (put x k).transparent = k.transparent) →
      (∀ x k, (put x k).names = k.names) →
      VariantInv v fields (slotItem get put func name span st).2.1 ∧
      st.1.errs.toList <+: (slotItem get put func name span st).2.1.errs.toList := by
    intro α get put func name h1 h2
    obtain ⟨hm, x, hx, -⟩ := slotItem_cases get put func name span st
    exact same _ hm (by rw [hx, h1]) (by rw [hx, h2])
  cases ha : variantArm path <;> simp only [variantStep, ha]
  · obtain ⟨hm, x, hx, hc⟩ := slotItem_cases (κ := VariantSt) (·.transparent)
      (fun st k => { k with transparent := st })
      (transparentItem (txt "variant") fields span ((optionDict (spannedDict boolDict)).named path span))
      (txt "transparent") span st
    refine ⟨⟨?_, fun hs => ?_⟩, hm⟩
    · rw [hx]; exact h.names.errs hm
    · rw [hx] at hs
      rcases hc with rfl | ⟨hp, -⟩ | ⟨v, s, s', hv, -⟩
      · exact h.transparent hs
      · dsimp only at hs; cases x <;> simp [FieldStatus.isParseError, FieldStatus.isSome] at hp hs
      · exact transparentItem_ok hv
  · by_cases hn : v.shape = .unnamed
    · rw [if_pos hn]; exact same _ (refuse_mono _ _ _).1 rfl rfl
    · rw [if_neg hn]; exact slot _ _ _ _ (fun _ _ => rfl) (fun _ _ => rfl)
  · exact slot _ _ _ _ (fun _ _ => rfl) (fun _ _ => rfl)
  · have := renameItem_inv (txt "variant") (some v.ident.1) span (⟨st.1.val.names, st.1.errs⟩, st.2) h.names
    exact ⟨⟨this.1, h.transparent⟩, this.2⟩
  · have := aliasItem_inv (txt "variant") (some v.ident.1) span (⟨st.1.val.names, st.1.errs⟩, st.2) h.names
    exact ⟨⟨this.1, h.transparent⟩, this.2⟩
  · exact slot _ _ _ _ (fun _ _ => rfl) (fun _ _ => rfl)
  · exact same _ (checkUnknownItem_mono _ _ _ _).1 rfl rfl

omit [Env] in
theorem variantLoops_nil (fs : List FieldDecl) (seen : Bool) (errs : Errors) :
    (variantLoops fs seen errs).toList = [] ↔ errs.toList = [] ∧
      fs.countP (·.container.isSome) + seen.toNat ≤ 1 := by
  induction fs generalizing seen errs with
  | nil => cases seen <;> simp [variantLoops]
  | cons f fs ih =>
    rw [variantLoops]
    obtain ⟨c1, c2, -⟩ := containerLoop_spec f seen errs
    rw [ih, c1, c2, List.countP_cons]
    cases seen <;> cases f.container <;> simp

theorem variantDone_nil (lib : SynLib) (v : VariantIn) (fields : List FieldDecl) (acc : Acc VariantSt) :
    (variantDone lib v fields acc).1.toList = [] ↔ acc.errs.toList = [] ∧
      ¬ ((variantDone lib v fields acc).2.flatten.isSome = true ∧ acc.val.names.rename.isSome = true) ∧
      ¬ ((variantDone lib v fields acc).2.flatten.isSome = true ∧ acc.val.names.aliasSpan.isSome = true) ∧
      (variantDone lib v fields acc).2.fields.countP (·.container.isSome) ≤ 1 ∧
      (v.shape = .unnamed → (variantDone lib v fields acc).2.fields.Pairwise fun f g =>
        f.positional = true → g.positional = true → g.default = none → f.default = none) := by
  have hi : ∀ {α : Type} (x : FieldStatus α), x.intoOption.isSome = x.isSome := by
    intro α x; cases x <;> rfl
  unfold variantDone
  dsimp only
  generalize List.map fillSkipped fields = fs
  by_cases hs : v.shape = .unnamed
  · rw [if_pos hs, gapLoop_nil, variantLoops_nil, onlyOne_nil, onlyOne_nil, present_pair, present_pair,
      List.pairwise_reverse]
    simp only [hs, forall_const, Bool.toNat_false, Nat.add_zero, Bool.false_eq_true, false_implies,
      true_and, and_assoc, Option.isSome_map, hi]
    constructor
    · rintro ⟨h1, h2, h3, h4, h5⟩
      exact ⟨h1, h2, h3, h4, h5.imp fun h a b c => h b a c⟩
    · rintro ⟨h1, h2, h3, h4, h5⟩
      exact ⟨h1, h2, h3, h4, h5.imp fun h a b c => h b a c⟩
  · rw [if_neg hs, variantLoops_nil, onlyOne_nil, onlyOne_nil, present_pair, present_pair]
    simp [hs, hi, and_assoc]

theorem variantBody_length (lib : SynLib) (v : VariantIn) (l : List Stream) :
    (variantBody lib v l).2.length = l.length := by
  unfold variantBody
  split
  · rename_i errs ds hr
    dsimp only
    split
    · exact forStreams_length _ _ _
    · exact collectStruct_length _ _ _ _
  · rfl
  · rfl

/-- How `Variant::parse_attributes` accepts. -/
theorem VariantIn.read_ok {lib : SynLib} {v : VariantIn} {r : VariantDecl} (h : v.read lib = .ok r) :
    ∃ (ds : List FieldDecl) (acc : Acc VariantSt), v.fields.map (FieldIn.read lib) = ds.map .ok ∧
      VariantInv v ds acc ∧ acc.errs.toList = [] ∧ (variantDone lib v ds acc).1.toList = [] ∧
      r = (variantDone lib v ds acc).2 := by
  have hl : ∀ (ps : List (Str × Span)) l, (variantBody lib v l).2.length = l.length :=
    fun _ l => variantBody_length lib v l
  rw [VariantIn.read, c19_attr_tokens _ _ hl] at h
  obtain ⟨ss, ss', -, h⟩ := h
  unfold variantBody at h
  split at h
  · rename_i errs ds hr
    dsimp only at h
    split at h
    · simp at h
    obtain ⟨acc, h1, h2, h3, h4⟩ := collectStruct_ok (fun acc h => ((variantDone_nil _ _ _ _).1 h).1) h
    have hinv := parseStruct_inv (P := fun acc => VariantInv v ds acc ∧ errs.toList <+: acc.errs.toList)
      (fun p sp st hp => ⟨(variantStep_inv v ds p sp st hp.1).1, hp.2.trans (variantStep_inv v ds p sp st hp.1).2⟩)
      ⟨{}, errs⟩ ss ⟨⟨NamesInv.init _ _, by simp [FieldStatus.isSome]⟩, List.prefix_refl _⟩
    rw [h1] at hinv
    have hn : errs.toList = [] := List.prefix_nil.1 (h2 ▸ hinv.2)
    exact ⟨ds, acc, (readFields_ok hr hn).2, hinv.1, h2, h3, h4⟩
  · simp at h
  · simp at h

/-! ## Enums -/

theorem readVariants_ok {lib : SynLib} {vs : List VariantIn} {errs errs' : Errors} {ds : List VariantDecl}
    (h : readVariants lib vs errs = .ok (errs', ds)) (hn : errs'.toList = []) :
    errs.toList = [] ∧ vs.map (VariantIn.read lib) = ds.map .ok := by
  induction vs generalizing errs ds with
  | nil =>
    simp only [readVariants, Res.ok.injEq, Prod.mk.injEq] at h
    obtain ⟨rfl, rfl⟩ := h
    exact ⟨hn, rfl⟩
  | cons v vs ih =>
    rw [readVariants] at h
    cases hf : v.read lib with
    | ok d =>
      rw [hf] at h
      dsimp only at h
      cases hr : readVariants lib vs errs with
      | ok x =>
        rw [hr] at h
        simp only [Res.map, Res.ok.injEq, Prod.mk.injEq] at h
        obtain ⟨h1, rfl⟩ := h
        have := ih (errs := errs) (ds := x.2) (by rw [hr, ← h1])
        exact ⟨this.1, by simp [hf, this.2]⟩
      | err e => rw [hr] at h; simp [Res.map] at h
      | panic => rw [hr] at h; simp [Res.map] at h
    | err e =>
      rw [hf] at h
      have := (ih h).1
      simp [SynErr.toList] at this
    | panic => rw [hf] at h; simp at h

theorem enumContainers_spec (c : Option ContainerD) (seen : Bool) (errs : Errors) :
    errs.toList <+: (enumContainers c seen errs).2.toList ∧
    (enumContainers c seen errs).1 = (seen || c.isSome) ∧
    ((enumContainers c seen errs).2.toList = [] ↔ errs.toList = [] ∧
      (seen = true → ∀ x, c = some x → x.lifetime = none ∧ x.ty = none)) := by
  unfold enumContainers
  cases c with
  | none => simp
  | some c =>
    cases seen with
    | false => simp
    | true =>
      cases hl : c.lifetime <;> cases ht : c.ty <;> simp [hl, ht]

/-- The names of the variants selected by name. -/
def byNameNames (vs : List VariantDecl) : List Str :=
  vs.flatMap fun v => if v.isFlatten then [] else v.idents.map (·.1)

theorem enumLoop1_mono (vs : List VariantDecl) (all : List Str) (seen : Bool) (keys : KeySet) (errs : Errors) :
    errs.toList <+: (enumLoop1 vs all seen keys errs).2.toList := by
  induction vs generalizing all seen keys errs with
  | nil => exact List.prefix_refl _
  | cons v vs ih =>
    rw [enumLoop1]
    dsimp only
    split
    · exact (enumContainers_spec v.container seen errs).1.trans (ih _ _ _ _)
    · exact ((enumContainers_spec v.container seen errs).1.trans (dupLoop_mono _ _ _ _)).trans (ih _ _ _ _)

theorem enumLoop1_spec (vs : List VariantDecl) (all : List Str) (seen : Bool) (keys : KeySet) (errs : Errors) :
    ((enumLoop1 vs all seen keys errs).2.toList = [] ↔ errs.toList = [] ∧ (byNameNames vs).Nodup ∧
      (∀ x ∈ byNameNames vs, x ∉ all) ∧
      (seen = true → ∀ v ∈ vs, ∀ c, v.container = some c → c.lifetime = none ∧ c.ty = none) ∧
      vs.Pairwise fun v w => v.container.isSome = true → ∀ c, w.container = some c →
        c.lifetime = none ∧ c.ty = none) ∧
    (∀ k, k ∈ (enumLoop1 vs all seen keys errs).1 ↔
      k ∈ keys ∨ ∃ v ∈ vs, v.isFlatten = false ∧ k = [btSet cmpStr (v.idents.map (·.1))]) := by
  induction vs generalizing all seen keys errs with
  | nil => simp [enumLoop1, byNameNames]
  | cons v vs ih =>
    rw [enumLoop1]
    obtain ⟨-, c2, c3⟩ := enumContainers_spec v.container seen errs
    generalize enumContainers v.container seen errs = C at c2 c3
    obtain ⟨seen', e1⟩ := C
    dsimp only at c2 c3 ⊢
    subst c2
    cases hf : v.isFlatten with
    | true =>
      simp only [if_true]
      have hn : byNameNames (v :: vs) = byNameNames vs := by simp [byNameNames, hf]
      obtain ⟨i1, i2⟩ := ih all (seen || v.container.isSome) keys e1
      constructor
      · rw [i1, c3, hn, List.pairwise_cons]
        simp only [Bool.or_eq_true, List.forall_mem_cons, and_assoc]
        constructor
        · rintro ⟨h1, h2, h3, h4, h5, h6⟩
          exact ⟨h1, h3, h4, fun h => ⟨h2 h, h5 (.inl h)⟩, fun w hw h => h5 (.inr h) w hw, h6⟩
        · rintro ⟨h1, h3, h4, h5, h6, h7⟩
          refine ⟨h1, fun h => (h5 h).1, h3, h4, ?_, h7⟩
          rintro (h | h) w hw
          · exact (h5 h).2 w hw
          · exact h6 w hw h
      · intro k; rw [i2]; simp [hf]
    | false =>
      simp only [Bool.false_eq_true, if_false]
      have hn : byNameNames (v :: vs) = v.idents.map (·.1) ++ byNameNames vs := by simp [byNameNames, hf]
      obtain ⟨d1, d2⟩ := dupLoop_spec (txt "variant") v.idents all e1
      generalize dupLoop (txt "variant") v.idents all e1 = D at d1 d2
      obtain ⟨all', e2⟩ := D
      dsimp only at d1 d2 ⊢
      obtain ⟨i1, i2⟩ := ih all' (seen || v.container.isSome) ([btSet cmpStr (v.idents.map (·.1))] :: keys) e2
      constructor
      · rw [i1, d1, c3, hn, List.pairwise_cons, List.nodup_append]
        simp only [Bool.or_eq_true, List.forall_mem_cons, and_assoc, d2, List.mem_append]
        constructor
        · rintro ⟨h1, h2, h3, h4, h5, h6, h7, h8⟩
          refine ⟨h1, h3, h5, fun a ha b hb hab => ?_, ?_, fun h => ⟨h2 h, h7 (.inl h)⟩,
            fun w hw h => h7 (.inr h) w hw, h8⟩
          · subst hab; exact h6 a hb (.inl ha)
          · rintro x (hx | hx) ha
            · exact h4 x hx ha
            · exact h6 x hx (.inr ha)
        · rintro ⟨h1, h3, h5, h6, h4, h7, h8, h9⟩
          refine ⟨h1, fun h => (h7 h).1, h3, fun x hx => h4 x (.inl hx), h5, fun x hx => ?_, ?_, h9⟩
          · rintro (hx' | ha)
            · exact h6 x hx' x hx rfl
            · exact h4 x (.inr hx) ha
          · rintro (h | h) w hw
            · exact (h7 h).2 w hw
            · exact h8 w hw h
      · intro k; rw [i2]
        simp only [List.mem_cons, or_and_right, exists_or, exists_eq_left, hf, true_and]
        constructor
        · rintro ((h | h) | h)
          · exact .inr (.inl h)
          · exact .inl h
          · exact .inr (.inr h)
        · rintro (h | h | h)
          · exact .inl (.inr h)
          · exact .inl (.inl h)
          · exact .inr h

omit [Env] in
theorem enumLoop2_spec (vs : List VariantDecl) (keys : KeySet) (errs : Errors) :
    errs.toList <+: (enumLoop2 vs keys errs).2.toList ∧
    ((enumLoop2 vs keys errs).2.toList = [] ↔ errs.toList = [] ∧
      (∀ v ∈ vs, v.isFlatten = true → v.shape = .named ∧ v.fieldKey ∉ keys) ∧
      vs.Pairwise fun v w => v.isFlatten = true → w.isFlatten = true → v.fieldKey ≠ w.fieldKey) ∧
    ((enumLoop2 vs keys errs).2.toList = [] → ∀ k, k ∈ (enumLoop2 vs keys errs).1 ↔
      k ∈ keys ∨ ∃ v ∈ vs, v.isFlatten = true ∧ k = v.fieldKey) := by
  induction vs generalizing keys errs with
  | nil => simp [enumLoop2]
  | cons v vs ih =>
    rw [enumLoop2]
    cases hf : v.isFlatten with
    | false =>
      simp only [Bool.false_eq_true, if_false]
      obtain ⟨i0, i1, i2⟩ := ih keys errs
      refine ⟨i0, ?_, ?_⟩
      · rw [i1]; simp [hf, List.pairwise_cons]
      · intro h k; rw [i2 h]; simp [hf]
    | true =>
      simp only [if_true]
      by_cases hs : v.shape = .named
      · rw [if_pos hs]
        by_cases hk : keys.contains v.fieldKey = true
        · rw [if_pos hk]
          have hk' : v.fieldKey ∈ keys := by simpa using hk
          have hbad := (ih keys (errs.push v.span (.custom (txt
            "additional flattened variants must have at least one unique non-flattened, non-default field")))).1
          have hne := ne_nil_of_prefix hbad (by simp)
          refine ⟨List.IsPrefix.trans (by simp) hbad, ?_, fun h => absurd h hne⟩
          constructor
          · intro h; exact absurd h hne
          · rintro ⟨_, h, _⟩
            exact absurd hk' (h v (by simp) hf).2
        · rw [if_neg hk]
          have hk' : v.fieldKey ∉ keys := by simpa using hk
          obtain ⟨i0, i1, i2⟩ := ih (v.fieldKey :: keys) errs
          refine ⟨i0, ?_, ?_⟩
          · rw [i1]
            simp only [List.pairwise_cons, List.mem_cons, forall_eq_or_imp, not_or, hf, hs, hk', forall_const,
              true_and, not_false_eq_true]
            constructor
            · rintro ⟨h1, h2, h3⟩
              exact ⟨h1, fun w hw hwf => ⟨(h2 w hw hwf).1, (h2 w hw hwf).2.2⟩,
                fun w hw hwf he => (h2 w hw hwf).2.1 he.symm, h3⟩
            · rintro ⟨h1, h2, h3, h4⟩
              exact ⟨h1, fun w hw hwf => ⟨(h2 w hw hwf).1, fun he => h3 w hw hwf he.symm, (h2 w hw hwf).2⟩, h4⟩
          · intro h k; rw [i2 h]
            simp only [List.mem_cons, or_and_right, exists_or, exists_eq_left, hf, true_and]
            constructor
            · rintro ((h | h) | h)
              · exact .inr (.inl h)
              · exact .inl h
              · exact .inr (.inr h)
            · rintro (h | h | h)
              · exact .inl (.inr h)
              · exact .inl (.inl h)
              · exact .inr h
      · rw [if_neg hs]
        have hbad := (ih keys (errs.push v.span (.custom (txt
          "only enum variants with named fields can have `flatten`")))).1
        have hne := ne_nil_of_prefix hbad (by simp)
        refine ⟨List.IsPrefix.trans (by simp) hbad, ?_, fun h => absurd h hne⟩
        constructor
        · intro h; exact absurd h hne
        · rintro ⟨_, h, _⟩
          exact absurd (h v (by simp) hf).1 hs

/-- What is checked of an enum when all its variants are fine. -/
structure EnumChecked (vs : List VariantDecl) (hasDefault : Bool) : Prop where
  names : (byNameNames vs).Nodup
  container : vs.Pairwise fun v w => v.container.isSome = true → ∀ c, w.container = some c →
    c.lifetime = none ∧ c.ty = none
  flatNamed : ∀ v ∈ vs, v.isFlatten = true → v.shape = .named
  flatKeys : vs.Pairwise fun v w => v.isFlatten = true → w.isFlatten = true → v.fieldKey ≠ w.fieldKey
  flatNames : ∀ v ∈ vs, v.isFlatten = true → ∀ w ∈ vs, w.isFlatten = false →
    v.fieldKey ≠ [btSet cmpStr (w.idents.map (·.1))]
  default : hasDefault = true → ∀ v ∈ vs, v.isFlatten = true → v.fieldKey ≠ []

theorem enumDone_nil (vs : List VariantDecl) (k : EnumDefSt) (errs : Errors) :
    (enumDone vs k errs).1.toList = [] ↔ errs.toList = [] ∧ EnumChecked vs k.default.isSome := by
  unfold enumDone
  dsimp only
  obtain ⟨a1, a2⟩ := enumLoop1_spec vs [] false [] errs
  generalize enumLoop1 vs [] false [] errs = A at a1 a2
  obtain ⟨keys, e1⟩ := A
  dsimp only at a1 a2 ⊢
  obtain ⟨-, b1, b2⟩ := enumLoop2_spec vs keys e1
  generalize enumLoop2 vs keys e1 = B at b1 b2
  obtain ⟨keys', e2⟩ := B
  dsimp only at b1 b2 ⊢
  have hk : ∀ k', k' ∈ keys ↔ ∃ v ∈ vs, v.isFlatten = false ∧ k' = [btSet cmpStr (v.idents.map (·.1))] := by
    intro k'; rw [a2]; simp
  have hmain : e2.toList = [] ↔ errs.toList = [] ∧ (byNameNames vs).Nodup ∧
      (vs.Pairwise fun v w => v.container.isSome = true → ∀ c, w.container = some c →
        c.lifetime = none ∧ c.ty = none) ∧
      (∀ v ∈ vs, v.isFlatten = true → v.shape = .named ∧ v.fieldKey ∉ keys) ∧
      vs.Pairwise fun v w => v.isFlatten = true → w.isFlatten = true → v.fieldKey ≠ w.fieldKey := by
    rw [b1, a1]; simp [and_assoc]
  have hdef : (match k.default with
      | .some d => if keys'.contains [] then e2.push d.span (.custom (txt
          "`default` cannot be used when a flattened variant has no unique field")) else e2
      | _ => e2 : Errors).toList = [] ↔ e2.toList = [] ∧ (k.default.isSome = true → [] ∉ keys') := by
    cases k.default with
    | none => simp [FieldStatus.isSome]
    | parseError => simp [FieldStatus.isSome]
    | some d =>
      by_cases hc : keys'.contains [] = true
      · simp only [hc, if_true]
        have : [] ∈ keys' := by simpa using hc
        simp [FieldStatus.isSome, this]
      · simp only [if_neg hc]
        have : [] ∉ keys' := by simpa using hc
        simp [this]
  refine Iff.trans hdef ?_
  constructor
  · rintro ⟨h, hd⟩
    obtain ⟨h1, h2, h3, h4, h5⟩ := hmain.1 h
    refine ⟨h1, h2, h3, fun v hv hf => (h4 v hv hf).1, h5, fun v hv hf w hw hwf he => ?_, fun hs v hv hf he => ?_⟩
    · exact (h4 v hv hf).2 ((hk _).2 ⟨w, hw, hwf, he⟩)
    · exact hd hs ((b2 h _).2 (.inr ⟨v, hv, hf, he.symm⟩))
  · rintro ⟨h1, h⟩
    have h' := hmain.2 ⟨h1, h.names, h.container, fun v hv hf => ⟨h.flatNamed v hv hf, fun hm => by
      obtain ⟨w, hw, hwf, he⟩ := (hk _).1 hm
      exact h.flatNames v hv hf w hw hwf he⟩, h.flatKeys⟩
    refine ⟨h', fun hs hm => ?_⟩
    rcases (b2 h' _).1 hm with hm | ⟨v, hv, hf, he⟩
    · obtain ⟨w, _, _, he⟩ := (hk _).1 hm
      simp at he
    · exact h.default hs v hv hf he.symm

theorem enumBody_length (lib : SynLib) (d : EnumIn) (l : List Stream) :
    (enumBody lib d l).2.length = l.length := by
  have h : (parseStruct (enumDefStep lib) (⟨{}, Errors.new⟩, l)).2.2.length = l.length := forStreams_length _ _ _
  unfold enumBody
  dsimp only
  split
  · rename_i h'; rw [h'] at h; exact h
  · rename_i h'; rw [h'] at h; split <;> exact h
  · rename_i h'; rw [h'] at h; split <;> exact h

/-- How `Enum::parse_attributes` accepts. -/
theorem EnumIn.read_ok {lib : SynLib} {d : EnumIn} {r : EnumDecl} (h : d.read lib = .ok r) :
    d.variants.map (VariantIn.read lib) = r.variants.map .ok ∧ EnumChecked r.variants r.default.isSome := by
  have hl : ∀ (ps : List (Str × Span)) l, (enumBody lib d l).2.length = l.length :=
    fun _ l => enumBody_length lib d l
  rw [EnumIn.read, c19_attr_tokens _ _ hl] at h
  obtain ⟨ss, ss', -, h⟩ := h
  have key : ∀ (acc : Acc EnumDefSt) (l : List Stream),
      (match readVariants lib d.variants acc.errs with
      | .ok (errs, vs) => ((enumDone vs acc.val errs).1.intoResult (enumDone vs acc.val errs).2, l)
      | .err e => (.err e, l)
      | .panic => (.panic, l) : Res EnumDecl × List Stream) = (.ok r, ss') →
      d.variants.map (VariantIn.read lib) = r.variants.map .ok ∧ EnumChecked r.variants r.default.isSome := by
    intro acc l h
    split at h
    · rename_i errs vs hr
      rw [Prod.mk.injEq, Errors.intoResult_ok_iff, enumDone_nil] at h
      obtain ⟨⟨⟨h1, h2⟩, rfl⟩, -⟩ := h
      refine ⟨(readVariants_ok hr h1).2, ?_⟩
      have : (enumDone vs acc.val errs).2.default.isSome = acc.val.default.isSome := by
        show acc.val.default.intoOption.isSome = _
        cases acc.val.default <;> rfl
      rw [this]; exact h2
    · simp at h
    · simp at h
  unfold enumBody at h
  dsimp only at h
  split at h
  · simp at h
  · exact key _ _ h
  · rename_i e acc l _
    exact key ⟨acc.val, acc.errs.pushSyn e⟩ _ h

end Deluxe
