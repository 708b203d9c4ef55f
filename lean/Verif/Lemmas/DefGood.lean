import Verif.Lemmas.DefItems
import Verif.Props.With
/-!
# Reading definitions ends without panic
-/
namespace Deluxe
variable [Env]

/-- The parsers of syn end without panic. -/
structure SynLib.Good (lib : SynLib) : Prop where
  path : Deluxe.Good lib.path
  modPath : Deluxe.Good lib.modPath
  lifetime : Deluxe.Good lib.lifetime
  ty : Deluxe.Good lib.ty

omit [Env] in
theorem slotItem_good {κ α : Type} (get : κ → FieldStatus α) (put : FieldStatus α → κ → κ) {func : M Stream α}
    (hf : Good func) (name : Str) (span : Span) : Good (slotItem get put func name span) := by
  rintro ⟨⟨k, errs⟩, s⟩
  obtain ⟨g1, g2⟩ := hf s
  rw [slotItem_eq]
  split
  · rename_i h; rw [h] at g1; exact absurd rfl g1
  · rename_i h; rw [h] at g2; exact ⟨by simp, (skipMetaItem_adv _).trans g2⟩
  · rename_i h; rw [h] at g2; exact ⟨by simp, g2⟩

omit [Env] in
theorem refuse_good {κ : Type} (text : Text) (span : Span) : Good (refuse text span : M (Acc κ × Stream) Unit) :=
  fun st => ⟨by simp [refuse], skipMetaItem_adv st.2⟩

omit [Env] in
theorem report_good {κ : Type} (text : Text) (span : Span) : Good (report text span : M (Acc κ × Stream) Unit) :=
  fun st => ⟨by simp [report], Adv.refl st.2⟩

theorem unknownItem_good {κ : Type} (path : Str) (span : Span) (names : List Str) :
    Good (unknownItem path span names : M (Acc κ × Stream) Unit) :=
  fun st => ⟨by simp [unknownItem], skipMetaItem_adv st.2⟩

theorem checkUnknownItem_good {κ : Type} (path : Str) (span : Span) (names : List Str) :
    Good (checkUnknownItem path span names : M (Acc κ × Stream) Unit) :=
  fun st => ⟨by simp [checkUnknownItem], skipMetaItem_adv st.2⟩

omit [Env] in
theorem identSpDict_good : identSpDict.Good := by
  refine Dict.mk'_good_parse fun _ => ?_
  intro s
  dsimp only
  split
  · rename_i h
    exact ⟨by simp, .toks_of s (by rw [h]; exact List.suffix_cons _ _)⟩
  · exact ⟨by simp, Adv.refl s⟩

omit [Env] in
theorem defaultDict_good : defaultDict.Good :=
  Dict.mk'_good (fun _ s => ⟨by simp, .toks_of s List.nil_suffix⟩)
    (parseFirst_good fun _ s => ⟨by simp, .toks_of s List.nil_suffix⟩) (fun _ => by simp) dfltMissing_ne

theorem anyPathDict_good : anyPathDict.Good := by
  exact withModule_good (fun _ => parseAnyPath_good) (fun m => parseFirst_good (fun _ => parseAnyPath_good) m)
    (fun _ => by simp) (fun _ _ => by simp)

omit [Env] in
theorem boolOrBraces_good {α} (ofBool : Span → Bool → α) {inline : Mode → M (List Stream) α}
    (hi : ∀ m, Good (inline m)) (mode : Mode) : Good (boolOrBraces ofBool inline mode) := by
  intro s
  unfold boolOrBraces
  split
  · exact Good.map _ (expectLit_good _ _) s
  · split
    · exact parseDelimitedWith_good _ (single_good (hi mode)) s
    · exact ⟨by simp, Adv.refl s⟩

theorem flattenInline_good (mode : Mode) : Good (flattenInline mode) := by
  intro l
  refine Good.map _ (runAccPush_good _ (parseStruct_good fun p sp => ?_)) l
  split
  · exact slotItem_good _ _ (anyPathDict_good.named _ _) _ _
  · exact unknownItem_good _ _ _

theorem flattenDict_good : flattenDict.Good :=
  Dict.mk'_good (boolOrBraces_good _ flattenInline_good) flattenInline_good (fun _ => by simp) dfltMissing_ne

theorem containerInline_good {lib : SynLib} (h : lib.Good) (mode : Mode) : Good (containerInline lib mode) := by
  intro l
  refine Good.map _ (runAccPush_good _ (parseStruct_good fun p sp => ?_)) l
  split
  · exact slotItem_good _ _ ((synDict_good h.lifetime).named _ _) _ _
  · split
    · exact slotItem_good _ _ ((synDict_good h.ty).named _ _) _ _
    · exact unknownItem_good _ _ _

theorem containerDict_good {lib : SynLib} (h : lib.Good) : (containerDict lib).Good :=
  Dict.mk'_good (boolOrBraces_good _ (containerInline_good h)) (containerInline_good h) (fun _ => by simp)
    dfltMissing_ne

theorem transparentInline_good (mode : Mode) : Good (transparentInline mode) := by
  intro l
  refine Good.map _ (runAccPush_good _ (parseStruct_good fun p sp => ?_)) l
  split
  · exact slotItem_good _ _ (boolDict_good.named _ _) _ _
  · split
    · exact slotItem_good _ _ (boolDict_good.named _ _) _ _
    · split
      · exact slotItem_good _ _ (boolDict_good.named _ _) _ _
      · split
        · exact slotItem_good _ _ (boolDict_good.named _ _) _ _
        · exact unknownItem_good _ _ _

theorem transparentDict_good : transparentDict.Good :=
  Dict.mk'_good (boolOrBraces_good _ transparentInline_good) transparentInline_good (fun _ => by simp)
    dfltMissing_ne

omit [Env] in
theorem modPathVec_good {lib : SynLib} (h : lib.Good) : (modPathVec lib).Good := by
  have hm : (modPathDict lib.modPath).Good :=
    withModule_good (fun _ => h.modPath) (fun m => parseFirst_good (fun _ => h.modPath) m)
      (fun _ => by simp) (fun _ _ => by simp)
  have hs := seqDict_good (innerDict_good hm).parse
  exact withModule_good hs.parse hs.inline (fun _ => by simp) (fun _ _ => by simp)

omit [Env] in
theorem renameItem_good (what : Str) (own : Option Str) (span : Span) : Good (renameItem what own span) := by
  rintro ⟨⟨n, errs⟩, s⟩
  obtain ⟨g1, g2⟩ := identSpDict_good.named (txt "rename") span s
  have hf : ∀ (e : SynErr) (s' : Stream), Adv s' s → (renameFailed n span errs e s').1 ≠ .panic ∧
      Adv (renameFailed n span errs e s').2.2 s :=
    fun e s' h => ⟨by simp [renameFailed], (skipMetaItem_adv _).trans h⟩
  rw [renameItem_eq]
  split
  · rename_i h; rw [h] at g1; exact absurd rfl g1
  · rename_i h; rw [h] at g2; exact hf _ _ g2
  · rename_i h; rw [h] at g2
    split
    · exact hf _ _ g2
    · split
      · exact hf _ _ g2
      · exact ⟨by simp, g2⟩

omit [Env] in
theorem aliasItem_good (what : Str) (own : Option Str) (span : Span) : Good (aliasItem what own span) :=
  stepPush_good (identSpDict_good.named _ _) _

omit [Env] in
theorem onNames_good {κ : Type} (get : κ → Names) (put : Names → κ → κ) {m : M (Acc Names × Stream) Unit}
    (hm : Good m) : Good (onNames get put m) :=
  fun st => hm (⟨get st.1.val, st.1.errs⟩, st.2)

omit [Env] in
theorem pushItem_good {κ α : Type} {item : M Stream α} (hi : Good item) (put : κ → α → κ) :
    Good (pushItem item put) := stepPush_good hi _

omit [Env] in
theorem transparentItem_good {α} (what : Str) (fields : List FieldDecl) (span : Span) {func : M Stream α}
    (hf : Good func) : Good (transparentItem what fields span func) := by
  unfold transparentItem
  split
  · exact Good.fail _
  · exact hf

theorem fieldStep_good {lib : SynLib} (h : lib.Good) (f : FieldIn) (path : Str) (span : Span) :
    Good (fieldStep lib f path span) := by
  have hb := spannedDict_good boolDict_good
  cases ha : fieldArm path <;> simp only [fieldStep, ha]
  · exact slotItem_good _ _ (flattenDict_good.named _ _) _ _
  · split
    · exact refuse_good _ _
    · exact slotItem_good _ _ (hb.named _ _) _ _
  · split
    · exact refuse_good _ _
    · exact slotItem_good _ _ (hb.named _ _) _ _
  · exact slotItem_good _ _ (defaultDict_good.named _ _) _ _
  · exact slotItem_good _ _ ((synDict_good h.path).named _ _) _ _
  · split
    · exact report_good _ _
    · exact onNames_good _ _ (renameItem_good _ _ _)
  · split
    · exact report_good _ _
    · exact onNames_good _ _ (aliasItem_good _ _ _)
  · exact slotItem_good _ _ ((containerDict_good h).named _ _) _ _
  · exact slotItem_good _ _ (hb.named _ _) _ _
  · exact pushItem_good (tokenStreamDict_good.named _ _) _
  · exact pushItem_good (tokenStreamDict_good.named _ _) _
  · exact checkUnknownItem_good _ _ _

theorem structStep_good {lib : SynLib} (h : lib.Good) (shape : Shape) (fields : List FieldDecl) (path : Str)
    (span : Span) : Good (structStep lib shape fields path span) := by
  cases ha : structArm path <;> simp only [structStep, ha]
  · exact slotItem_good _ _ (transparentItem_good _ _ _ (transparentDict_good.named _ _)) _ _
  · split
    · exact refuse_good _ _
    · exact slotItem_good _ _ (boolDict_good.named _ _) _ _
  · split
    · exact refuse_good _ _
    · exact slotItem_good _ _ (defaultDict_good.named _ _) _ _
  · exact slotItem_good _ _ ((synDict_good h.path).named _ _) _ _
  · exact pushItem_good (tokenStreamDict_good.named _ _) _
  · exact pushItem_good ((modPathVec_good h).named _ _) _
  · exact checkUnknownItem_good _ _ _

theorem variantStep_good (v : VariantIn) (fields : List FieldDecl) (path : Str) (span : Span) :
    Good (variantStep v fields path span) := by
  have hb := spannedDict_good boolDict_good
  cases ha : variantArm path <;> simp only [variantStep, ha]
  · exact slotItem_good _ _ (transparentItem_good _ _ _ ((optionDict_good hb).named _ _)) _ _
  · split
    · exact refuse_good _ _
    · exact slotItem_good _ _ (boolDict_good.named _ _) _ _
  · exact slotItem_good _ _ ((optionDict_good hb).named _ _) _ _
  · exact onNames_good _ _ (renameItem_good _ _ _)
  · exact onNames_good _ _ (aliasItem_good _ _ _)
  · exact slotItem_good _ _ (hb.named _ _) _ _
  · exact checkUnknownItem_good _ _ _

theorem enumDefStep_good {lib : SynLib} (h : lib.Good) (path : Str) (span : Span) :
    Good (enumDefStep lib path span) := by
  cases ha : enumArm path <;> simp only [enumDefStep, ha]
  · exact slotItem_good _ _ (defaultDict_good.named _ _) _ _
  · exact slotItem_good _ _ ((synDict_good h.path).named _ _) _ _
  · exact pushItem_good (tokenStreamDict_good.named _ _) _
  · exact pushItem_good ((modPathVec_good h).named _ _) _
  · exact slotItem_good _ _ (boolDict_good.named _ _) _ _
  · exact checkUnknownItem_good _ _ _

theorem collectStruct_good {κ α : Type} (init : Acc κ) {step : Str → Span → M (Acc κ × Stream) Unit}
    (hs : ∀ p sp, Good (step p sp)) (fin : Acc κ → Errors × α) : Good (collectStruct init step fin) := by
  intro l
  have := parseStruct_good hs (init, l)
  unfold collectStruct
  split
  · rename_i h; rw [h] at this; exact absurd rfl this.1
  · rename_i h; rw [h] at this; exact ⟨Errors.intoResult_ne_panic _ _, this.2⟩
  · rename_i h; rw [h] at this; exact ⟨Errors.intoResult_ne_panic _ _, this.2⟩

theorem fieldBody_good {lib : SynLib} (h : lib.Good) (f : FieldIn) : Good (fieldBody lib f) :=
  collectStruct_good _ (fieldStep_good h f) _

theorem FieldIn.read_ne_panic {lib : SynLib} (h : lib.Good) (f : FieldIn) : f.read lib ≠ .panic :=
  c60_never_panics _ _ fun _ l => (fieldBody_good h f l).1

theorem readFields_ok_or {lib : SynLib} (h : lib.Good) (fs : List FieldIn) (errs : Errors) :
    ∃ x, readFields lib fs errs = .ok x := by
  induction fs generalizing errs with
  | nil => exact ⟨_, rfl⟩
  | cons f fs ih =>
    rw [readFields]
    cases hf : f.read lib with
    | ok d => obtain ⟨x, hx⟩ := ih errs; exact ⟨_, by simp only [hx]; rfl⟩
    | err e => exact ih _
    | panic => exact absurd hf (f.read_ne_panic h)

theorem structBody_good {lib : SynLib} (h : lib.Good) (d : StructIn) : Good (structBody lib d) := by
  intro l
  obtain ⟨⟨errs, fs⟩, hx⟩ := readFields_ok_or h d.fields Errors.new
  unfold structBody
  rw [hx]
  exact collectStruct_good _ (structStep_good h _ _) _ l

theorem StructIn.read_ne_panic {lib : SynLib} (h : lib.Good) (d : StructIn) : d.read lib ≠ .panic :=
  c60_never_panics _ _ fun _ l => (structBody_good h d l).1

/-- The name of the variant can be made in snake case. -/
def VariantIn.NameOk (lib : SynLib) (v : VariantIn) : Prop := lib.isIdent (lib.snake (unraw v.ident.1)) = true

theorem variantBody_good {lib : SynLib} (h : lib.Good) {v : VariantIn} (hv : v.NameOk lib) :
    Good (variantBody lib v) := by
  intro l
  obtain ⟨⟨errs, fs⟩, hx⟩ := readFields_ok_or h v.fields Errors.new
  unfold variantBody
  rw [hx]
  have hn : ∀ k, ownNamePanics lib v k = false := by
    intro k
    rw [ownNamePanics, show lib.isIdent _ = true from hv]
    simp
  simp only [hn]
  exact collectStruct_good _ (variantStep_good _ _) _ l

theorem VariantIn.read_ne_panic {lib : SynLib} (h : lib.Good) {v : VariantIn} (hv : v.NameOk lib) :
    v.read lib ≠ .panic :=
  c60_never_panics _ _ fun _ l => (variantBody_good h hv l).1

theorem readVariants_ok_or {lib : SynLib} (vs : List VariantIn) (hv : ∀ v ∈ vs, v.read lib ≠ .panic)
    (errs : Errors) : ∃ x, readVariants lib vs errs = .ok x := by
  induction vs generalizing errs with
  | nil => exact ⟨_, rfl⟩
  | cons v vs ih =>
    have ih := ih fun w hw => hv w (.tail _ hw)
    rw [readVariants]
    cases hf : v.read lib with
    | ok d => obtain ⟨x, hx⟩ := ih errs; exact ⟨_, by simp only [hx]; rfl⟩
    | err e => exact ih _
    | panic => exact absurd hf (hv v (.head _))

/-- One panicking variant is enough. -/
theorem readVariants_panic {lib : SynLib} (vs : List VariantIn) (hv : ∃ v ∈ vs, v.read lib = .panic)
    (errs : Errors) : readVariants lib vs errs = .panic := by
  induction vs generalizing errs with
  | nil => obtain ⟨v, h, -⟩ := hv; cases h
  | cons v vs ih =>
    rw [readVariants]
    cases hf : v.read lib with
    | panic => rfl
    | err e =>
      obtain ⟨w, hw, hp⟩ := hv
      cases hw with
      | head => rw [hf] at hp; cases hp
      | tail _ hw => exact ih ⟨w, hw, hp⟩ _
    | ok d =>
      obtain ⟨w, hw, hp⟩ := hv
      cases hw with
      | head => rw [hf] at hp; cases hp
      | tail _ hw => simp only [ih ⟨w, hw, hp⟩]; rfl

theorem enumBody_good {lib : SynLib} (h : lib.Good) {d : EnumIn} (hv : ∀ v ∈ d.variants, v.read lib ≠ .panic) :
    Good (enumBody lib d) := by
  intro l
  have hp := parseStruct_good (enumDefStep_good h) (⟨{}, Errors.new⟩, l)
  unfold enumBody
  dsimp only
  split
  · rename_i he; rw [he] at hp; exact absurd rfl hp.1
  · rename_i acc l' he
    rw [he] at hp
    obtain ⟨⟨errs, vs⟩, hx⟩ := readVariants_ok_or d.variants hv acc.errs
    simp only [hx]
    exact ⟨Errors.intoResult_ne_panic _ _, hp.2⟩
  · rename_i e acc l' he
    rw [he] at hp
    obtain ⟨⟨errs, vs⟩, hx⟩ := readVariants_ok_or d.variants hv (acc.errs.pushSyn e)
    simp only [hx]
    exact ⟨Errors.intoResult_ne_panic _ _, hp.2⟩

theorem EnumIn.read_ne_panic {lib : SynLib} (h : lib.Good) {d : EnumIn} (hv : ∀ v ∈ d.variants, v.read lib ≠ .panic) :
    d.read lib ≠ .panic :=
  c60_never_panics _ _ fun _ l => (enumBody_good h hv l).1

end Deluxe
