import Verif.Spec.DefPlaces
import Verif.Props.DefTwice
import Verif.Props.Reported
/-!
# C117: an attribute of a definition at a place where it is not allowed is reported and hides no other mistake

macros/types/field.rs:1076-1181, macros/types/struct.rs:417-501, macros/types/variant.rs:522-630.  For `rename` and `alias`
on tuple fields the value is not skipped and the claim fails.
-/
namespace Deluxe

variable [Env]

section
variable {κ α : Type} {step : Str → Span → M (Acc κ × Stream) Unit} {key : Str} {sp : Span} {v vt rest : List Tok}
  {sc : Span} {fits : Prop}

theorem refuse_takes {text : Str} (hs : step (keyString [key]) sp = refuse (.custom text) sp) (hk : KeyToks [key] sp v vt)
    (hc : NoComma vt) (hb : Boundary rest) : Takes (keyStep step) [⟨sp, .custom text⟩] fits v rest sc := by
  intro k errs u
  left
  rw [keyStep_key _ hk hb, hs]
  simp only [refuse]
  exact ⟨_, _, by rw [skip_boundary hc hb], by simp [Errors.toList_push]⟩

theorem slot_fails {get : κ → FieldStatus α} {put : FieldStatus α → κ → κ} {name : Str} {e : SynErr}
    (hs : step (keyString [key]) sp = slotItem get put (M.fail e) name sp) (hk : KeyToks [key] sp v vt)
    (hc : NoComma vt) (hb : Boundary rest) : Takes (keyStep step) e.toList fits v rest sc := by
  intro k errs u
  left
  rw [keyStep_key _ hk hb, hs, slotItem_eq]
  simp only [M.fail]
  refine ⟨_, _, by rw [skip_boundary hc hb], ?_⟩
  rw [Errors.toList_pushSyn]
  exact (dupErrs_sub ..).append (List.Sublist.refl _)
end

omit [Env] in
theorem transparentRefusal_text {what : String} {fields : List FieldDecl} {text : String}
    (h : NotTransparent what fields text) : transparentRefusal what.toList fields = some text.toList := by
  cases h with
  | nothing h =>
    have : fields.filter (·.isParsable) = [] := by simpa [List.filter_eq_nil_iff] using h
    simp [transparentRefusal, this, txt]
  | flatten h1 h2 => simp [transparentRefusal, h1, h2, txt]
  | append h1 h2 h3 => simp [transparentRefusal, h1, h2, h3, txt]
  | several h1 h2 h3 => simp [transparentRefusal, h1, h2, h3, txt]

omit [Env] in
theorem notTransparent_of {what : String} {fields : List FieldDecl} (h : ∀ text, ¬ NotTransparent what fields text) :
    CanBeTransparent fields := by
  cases hf : fields.filter (·.isParsable) with
  | nil => exact absurd (.nothing (by simpa [List.filter_eq_nil_iff] using hf)) (h _)
  | cons f fs =>
    cases h1 : f.isFlatten with
    | true => exact absurd (.flatten hf h1) (h _)
    | false =>
      cases h2 : f.isAppend with
      | true => exact absurd (.append hf h1 h2) (h _)
      | false =>
        cases fs with
        | nil => exact ⟨f, hf, h1, h2⟩
        | cons g fs => exact absurd (.several hf h1 h2) (h _)

/-- Running over a list some of whose attributes may not be allowed. -/
theorem collect_placed {κ α : Type} {step : Str → Span → M (Acc κ × Stream) Unit} {fin : Acc κ → Errors × α}
    {readers : List (String × Reader)} {bad : NotAllowed} {names : List String} {ok : Placed → Prop} {init : Acc κ}
    (hstep : ∀ v rest sc b, PlaceSeg readers bad v rest sc b → Boundary rest →
      Takes (keyStep step) (b.msgs names) (ok b) v rest sc)
    (hmono : ∀ path span st, st.1.errs.toList <+: (step path span st).2.1.errs.toList)
    (hfin : ∀ acc, acc.errs.toList <+: (fin acc).1.toList)
    {l : List Stream} {bs : List Placed} (hi : ItemsAll (PlaceSeg readers bad) l bs) (hok : ∀ b ∈ bs, ok b)
    (hbad : init.errs.toList ≠ [] ∨ ∃ b ∈ bs, b.msgs names ≠ []) :
    ∃ e, collectStruct init step fin l = (.err e, l.map Stream.clear) ∧
      (init.errs.toList ++ bs.flatMap (Placed.msgs names)).Sublist e.toList := by
  obtain ⟨k, errs⟩ := init
  have hne : errs.toList ++ bs.flatMap (Placed.msgs names) ≠ [] := by
    rcases hbad with h | ⟨b, hm, hb⟩
    · simp only [ne_eq, List.append_eq_nil_iff, not_and]
      exact fun h' => absurd h' h
    · simp only [ne_eq, List.append_eq_nil_iff, not_and]
      exact fun _ h => hb (List.flatMap_eq_nil_iff.1 h b hm)
  rcases parseStruct_entries hstep hmono hi k errs with ⟨k', e', h1, h2⟩ | ⟨h1, h2⟩
  · have hsub : (errs.toList ++ bs.flatMap (Placed.msgs names)).Sublist (fin ⟨k', e'⟩).1.toList :=
      h2.trans (hfin ⟨k', e'⟩).sublist
    obtain ⟨e, h3, h4⟩ := intoResult_err (x := (fin ⟨k', e'⟩).2) hsub hne
    refine ⟨e, ?_, h4⟩
    rw [collectStruct, h1]
    dsimp only
    rw [h3]
  · exact absurd hok h1

/-! ## Fields -/

/-- C117 for fields: whatever else is wrong with the attributes of a field, if one of them is not allowed there, it is
reported, and so are all mistakes of the others, in order. On tuple fields this is for lists without `rename` and `alias`. -/
theorem c117_field_partial {lib : SynLib} {f : FieldIn} {ss : List Stream} {bs : List Placed}
    (hm : ListStreams (deluxeAttrs f.attrs) ss) (hi : ItemsAll (PlaceSeg (fieldReaders lib) (NotOnField f)) ss bs)
    (hn : f.ident = none → ∀ b, .entry b ∈ bs → b.key? ≠ some "rename" ∧ b.key? ≠ some "alias")
    (hbad : ∃ b ∈ bs, b.msgs fieldSuggested ≠ []) :
    ∃ e, f.read lib = .err e ∧ (bs.flatMap (Placed.msgs fieldSuggested)).Sublist e.toList := by
  obtain ⟨e, h3, h4⟩ := collect_placed (init := ⟨{}, Errors.new⟩)
    (fin := fun acc : Acc FieldSt => (fieldChecks acc.val acc.errs, fieldDone f acc.val)) (step := fieldStep lib f)
    (ok := fun p => f.ident = none → ∀ b, p = .entry b → b.key? ≠ some "rename" ∧ b.key? ≠ some "alias")
    (names := fieldSuggested) (fun v rest sc p hs hb => by
      cases hs with
      | @entry b hs hno =>
        intro k errs u
        refine (fieldStep_takes v rest sc b hs hb k errs u).imp_right fun ⟨h1, h2⟩ => ⟨fun h => h1 fun hn key hk hx => ?_, h2⟩
        have := h hn b rfl
        rw [hk] at this
        simp only [List.mem_cons, List.not_mem_nil, or_false] at hx
        rcases hx with rfl | rfl | rfl | rfl
        · exact hno _ _ hk (.append hn)
        · exact hno _ _ hk (.rest hn)
        · exact this.1 rfl
        · exact this.2 rfl
      | misplaced hx hk hc =>
        cases hx with
        | append h => exact refuse_takes ((fieldStep_append ..).trans (if_pos (by simp [h]))) hk hc hb
        | rest h => exact refuse_takes ((fieldStep_rest ..).trans (if_pos (by simp [h]))) hk hc hb)
    (fieldStep_mono lib f) (fun acc => fieldChecks_mono acc.val acc.errs) hi
    (fun p hp h b hb => by subst hb; exact hn h b hp) (.inr hbad)
  exact ⟨e, readWith_eq (fieldBody_length lib f) hm h3 (by simp), (List.sublist_append_right ..).trans h4⟩

/-! ## Structures -/

theorem structStep_refused {lib : SynLib} {shape : Shape} {fields : List FieldDecl} {text : String} (sp : Span)
    (h : NotTransparent "struct" fields text) :
    structStep lib shape fields (keyString ["transparent".toList]) sp = slotItem (·.transparent)
      (fun st k => { k with transparent := st }) (M.fail (.new sp (.custom text.toList))) (txt "transparent") sp := by
  have hs : structStep lib shape fields (keyString ["transparent".toList]) sp = slotItem (·.transparent)
    (fun st k => { k with transparent := st }) (transparentItem (txt "struct") fields sp
      (transparentDict.named (txt "transparent") sp)) (txt "transparent") sp := rfl
  rw [hs, transparentItem, show txt "struct" = "struct".toList from rfl, transparentRefusal_text h]

/-- C117 for structures: the mistakes of the fields, each attribute that is not allowed on the structure and all mistakes
of the others are reported together. -/
theorem c117_struct {lib : SynLib} (hl : lib.Good) {d : StructIn} {ss : List Stream} {bs : List Placed}
    (hm : ListStreams (deluxeAttrs d.attrs) ss)
    (hi : ItemsAll (PlaceSeg (structReaders lib) (NotOnStruct d.shape (d.fields.filterMap fun f => (f.read lib).value?))) ss bs)
    (hbad : (∃ f ∈ d.fields, ∃ e, f.read lib = .err e) ∨ ∃ b ∈ bs, b.msgs structSuggested ≠ []) :
    ∃ e, d.read lib = .err e ∧
      ((d.fields.flatMap fun f => (f.read lib).msgs) ++ bs.flatMap (Placed.msgs structSuggested)).Sublist e.toList := by
  obtain ⟨errs, hr, he⟩ := readFields_eq hl d.fields Errors.new
  have he : errs.toList = d.fields.flatMap fun f => (f.read lib).msgs := he
  obtain ⟨e, h3, h4⟩ := collect_placed (init := ⟨{}, errs⟩) (ok := fun _ => True) (names := structSuggested)
    (fun v rest sc p hs hb => by
      cases hs with
      | @entry b hs hno =>
        intro k errs u
        refine (structStep_takes (lib := lib) v rest sc b hs hb k errs u).imp_right fun ⟨h1, h2⟩ => ⟨fun _ => h1 ⟨?_, ?_, ?_⟩, h2⟩
        · exact fun h hk => hno _ _ hk (.tuple h)
        · exact fun h hk => hno _ _ hk (.unit h)
        · exact fun hk => notTransparent_of fun text h => hno _ _ hk (.transparent h)
      | misplaced hx hk hc =>
        cases hx with
        | tuple h => exact refuse_takes ((structStep_allowUnknown ..).trans (if_pos h)) hk hc hb
        | unit h => exact refuse_takes ((structStep_default ..).trans (if_pos h)) hk hc hb
        | transparent h => exact slot_fails (structStep_refused _ h) hk hc hb)
    (structStep_mono lib d.shape (d.fields.filterMap fun f => (f.read lib).value?))
    (structDone_mono d.shape (d.fields.filterMap fun f => (f.read lib).value?)) hi (fun _ _ => trivial)
    (hbad.imp_left fun h => by rw [he]; exact fieldMsgs_ne h)
  have hbody : structBody lib d ss = collectStruct ⟨{}, errs⟩
      (structStep lib d.shape (d.fields.filterMap fun f => (f.read lib).value?))
      (structDone d.shape (d.fields.filterMap fun f => (f.read lib).value?)) ss := by
    rw [structBody, hr]
  rw [← hbody] at h3
  exact ⟨e, readWith_eq (structBody_length lib d) hm h3 (by simp), by rw [← he]; exact h4⟩

/-! ## Variants -/

theorem variantStep_refused {v : VariantIn} {fields : List FieldDecl} {text : String} (sp : Span)
    (h : NotTransparent "variant" fields text) :
    variantStep v fields (keyString ["transparent".toList]) sp = slotItem (·.transparent)
      (fun st k => { k with transparent := st }) (M.fail (.new sp (.custom text.toList))) (txt "transparent") sp := by
  have hs : variantStep v fields (keyString ["transparent".toList]) sp = slotItem (·.transparent)
    (fun st k => { k with transparent := st }) (transparentItem (txt "variant") fields sp
      ((optionDict (spannedDict boolDict)).named (txt "transparent") sp)) (txt "transparent") sp := rfl
  rw [hs, transparentItem, show txt "variant" = "variant".toList from rfl, transparentRefusal_text h]

/-- C117 for variants whose name can be made in snake case. -/
theorem c117_variant {lib : SynLib} (hl : lib.Good) {v : VariantIn} {ss : List Stream} {bs : List Placed}
    (hm : ListStreams (deluxeAttrs v.attrs) ss)
    (hi : ItemsAll (PlaceSeg variantReaders (NotOnVariant v.shape (v.fields.filterMap fun f => (f.read lib).value?))) ss bs)
    (hbad : (∃ f ∈ v.fields, ∃ e, f.read lib = .err e) ∨ ∃ b ∈ bs, b.msgs variantSuggested ≠ [])
    (hn : lib.isIdent (lib.snake (bareName v.ident.1)) = true) :
    ∃ e, v.read lib = .err e ∧
      ((v.fields.flatMap fun f => (f.read lib).msgs) ++ bs.flatMap (Placed.msgs variantSuggested)).Sublist e.toList := by
  obtain ⟨errs, hr, he⟩ := readFields_eq hl v.fields Errors.new
  have he : errs.toList = v.fields.flatMap fun f => (f.read lib).msgs := he
  obtain ⟨e, h3, h4⟩ := collect_placed (init := ⟨{}, errs⟩) (ok := fun _ => True) (names := variantSuggested)
    (fun vt rest sc p hs hb => by
      cases hs with
      | @entry b hs hno =>
        intro k errs u
        refine (variantStep_takes (v := v) vt rest sc b hs hb k errs u).imp_right fun ⟨h1, h2⟩ => ⟨fun _ => h1 ⟨?_, ?_⟩, h2⟩
        · exact fun h hk => hno _ _ hk (.tuple h)
        · exact fun hk => notTransparent_of fun text h => hno _ _ hk (.transparent h)
      | misplaced hx hk hc =>
        cases hx with
        | tuple h => exact refuse_takes ((variantStep_allowUnknown ..).trans (if_pos h)) hk hc hb
        | transparent h => exact slot_fails (variantStep_refused _ h) hk hc hb)
    (variantStep_mono v (v.fields.filterMap fun f => (f.read lib).value?))
    (variantDone_mono lib v (v.fields.filterMap fun f => (f.read lib).value?)) hi (fun _ _ => trivial)
    (hbad.imp_left fun h => by rw [he]; exact fieldMsgs_ne h)
  refine ⟨e, readWith_eq (variantBody_length lib v) hm ?_ (by simp), by rw [← he]; exact h4⟩
  rw [variantBody, hr]
  dsimp only
  rw [if_neg (by rw [ownNamePanics, unraw_eq, hn]; simp)]
  exact h3

/-! ## Where it fails -/

/-- C117 fails for `rename` and `alias` on a tuple field, as their value is not skipped: of `#[deluxe(rename = ..)]` all that
is reported is an unexpected token, not that `rename` is not allowed, and nothing about what follows. -/
theorem c117_rename_violated {lib : SynLib} {key : String} (hk : key ∈ ["rename", "alias"]) (s1 s2 : Span) (joint : Bool)
    (toks : List Tok) :
    FieldIn.read lib ⟨none, [deluxeList (.ident key.toList s1 :: .punct '=' joint s2 :: toks)]⟩ =
      .err (.new s2 .unexpectedToken) := by
  simp only [List.mem_cons, List.not_mem_nil, or_false] at hk
  rcases hk with rfl | rfl <;> rfl

/-! ## Examples -/

/-- A key that is not allowed, without a value -/
theorem misplaced_word {readers : List (String × Reader)} {bad : NotAllowed} {key text : String} (sp : Span) {rest sc}
    (h : bad key text) : PlaceSeg readers bad [.ident key.toList sp] rest sc (.misplaced text sp) :=
  .misplaced h (.mk (pt := [_]) (vt := []) (.plain (.one _ _)) (by simp [StartsColon2])) (by simp [NoComma])

/-- C117: on a tuple field with `#[deluxe(append = 7 8, prefx)]` both attributes are reported. -/
example : ∃ e, FieldIn.read demoLib ⟨none, [deluxeList [.ident (txt "append") 2, .punct '=' false 3, .lit (.int 7) 4,
      .lit (.int 8) 5, .punct ',' false 6, .ident (txt "prefx") 7]]⟩ = .err e ∧
    (⟨2, .custom (txt "`append` not allowed on tuple struct field")⟩ ::
      (unknownError (txt "prefx") 7 fieldAttrNames).toList).Sublist e.toList := by
  refine c117_field_partial (lib := demoLib) (bs := [.misplaced _ 2, .entry (.unknown (txt "prefx") 7)]) (.list .nil) ?_ ?_
    ⟨_, List.mem_cons_self, by simp [Placed.msgs]⟩
  · refine .cons (bs := [_, _]) (.cons (v := [.ident (txt "append") 2, .punct '=' false 3, .lit (.int 7) 4, .lit (.int 8) 5])
      ⟨_, _, rfl⟩ ?_ (.last (by simp) (.entry (unknown_word (key := "prefx") 7 fieldSuggested rfl (by decide)) (by simp [Entry.key?])))) .nil
    exact .misplaced (.append rfl) (.mk (pt := [_]) (.plain (.one _ _)) (by simp [StartsColon2])) (by simp [NoComma, Comma])
  · intro _ b hb
    simp only [List.mem_cons, List.not_mem_nil, or_false, reduceCtorEq, Placed.entry.injEq, false_or] at hb
    subst hb
    simp [Entry.key?]

/-- C117: on a unit structure `#[deluxe(default, transparent)]` is refused for both reasons. -/
example : ∃ e, StructIn.read demoLib ⟨.unit, [], [deluxeList [.ident (txt "default") 2, .punct ',' false 3,
      .ident (txt "transparent") 4]]⟩ = .err e ∧
    [⟨2, .custom (txt "`default` not allowed on unit struct")⟩,
      ⟨4, .custom (txt "`transparent` struct must have only one parseable field")⟩].Sublist e.toList := by
  refine c117_struct demoLib_good (bs := [.misplaced _ 2, .misplaced _ 4]) (.list .nil) ?_
    (.inr ⟨_, List.mem_cons_self, by simp [Placed.msgs]⟩)
  refine .cons (bs := [_, _]) (.cons (v := [.ident (txt "default") 2]) ⟨_, _, rfl⟩ (misplaced_word 2 (.unit rfl))
    (.last (by simp) (misplaced_word 4 (.transparent (.nothing (by simp)))))) .nil

/-- C117: so is a tuple variant with `#[deluxe(allow_unknown_fields, renam)]`. -/
example : ∃ e, VariantIn.read demoLib ⟨(txt "A", 10), 10, .unnamed, [], [deluxeList [.ident (txt "allow_unknown_fields") 2,
      .punct ',' false 3, .ident (txt "renam") 4]]⟩ = .err e ∧
    (⟨2, .custom (txt "`allow_unknown_fields` not allowed on tuple variant")⟩ ::
      (unknownError (txt "renam") 4 variantAttrNames).toList).Sublist e.toList := by
  refine c117_variant demoLib_good (bs := [.misplaced _ 2, .entry (.unknown (txt "renam") 4)]) (.list .nil) ?_
    (.inr ⟨_, List.mem_cons_self, by simp [Placed.msgs]⟩) rfl
  exact .cons (bs := [_, _]) (.cons (v := [.ident (txt "allow_unknown_fields") 2]) ⟨_, _, rfl⟩ (misplaced_word 2 (.tuple rfl))
    (.last (by simp) (.entry (unknown_word (key := "renam") 4 variantSuggested rfl (by decide)) (by simp [Entry.key?])))) .nil

end Deluxe
