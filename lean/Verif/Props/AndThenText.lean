import Verif.Props.AndThen
import Verif.Props.DefText
/-!
# C80, from the definition: the functions that run are those that are written

`Verif.Props.AndThen` is about the data used by the generated code.  Here the functions are those of the `and_then`
attributes of the definition, in the order in which they are written, and the attribute derives are included.
-/
namespace Deluxe

section
variable {V : Type} [Env]

/-- C80 in the attribute derives. -/
theorem c80_struct_attr (d : StructDef V) (site : Site V) (mode : Mode) (l : List Stream) :
    Followed d.andThens (d.plain.attrBody site mode l) (d.attrBody site mode l) := by
  have h : d.attrBody site mode l = (d.plain.attrBody site mode).mapRes (runAndThens d.andThens) l := by
    unfold StructDef.attrBody
    rw [show d.plain.isTransparent = d.isTransparent from rfl, show d.plain.fields = d.fields from rfl,
      show d.plain.shape = d.shape from rfl]
    split
    · cases d.fields.zipIdx.find? fun x => x.1.isParsable && !x.1.isFlat with
      | none => rfl
      | some x =>
        obtain ⟨f, k⟩ := x
        simp only [M.mapRes]
        congr 1
        cases (f.item.inline mode l).1 with
        | ok v =>
          simp only [StructDef.attrTransparentPost]
          rw [show d.plain.andThens = [] from rfl, runAndThens_nil]
          rfl
        | err e => rfl
        | panic => rfl
    · cases d.shape with
      | named =>
        simp only
        rw [show d.plain.andThens = [] from rfl, mapRes_nil]
        rfl
      | unnamed =>
        simp only
        rw [show d.plain.andThens = [] from rfl, mapRes_nil]
        rfl
      | unit =>
        simp only [M.mapRes]
        rcases eofAll l with ⟨⟨⟩ | e | _, l'⟩
        · simp only
          rw [show d.plain.andThens = [] from rfl, runAndThens_nil]
        · rfl
        · rfl
  rw [h]
  exact Followed.mapRes _ _ _

/-- C80 in the attribute derives. -/
theorem c80_enum_attr (e : EnumDef V) (site : Site V) (mode : Mode) (l : List Stream) :
    Followed e.andThens (e.plain.attrBody site mode l) (e.attrBody site mode l) :=
  (enumFlat_followed e site mode [] _ l).1

/-- C80: in an accepted structure the functions of the `and_then` attributes run, in the order in which they are
written, whatever else is written in the definition. -/
theorem c80_struct_written {lib : SynLib} {d : StructIn} {ss : List Stream} {ws : List StructWord}
    (hm : ListStreams (deluxeAttrs d.attrs) ss) (hi : ItemsAll (StructText lib) ss ws) {r : StructDecl}
    (h : d.read lib = .ok r) (sem : StructSem V) :
    let fs := (ws.filterMap StructWord.andThen?).map sem.andThen
    DictFollowed fs (({ r with andThens := [] } : StructDecl).toDef sem).dict (r.toDef sem).dict ∧
    DictFollowed fs (({ r with andThens := [] } : StructDecl).toMetaDef sem).dict (r.toMetaDef sem).dict ∧
    ∀ site mode l, Followed fs ((({ r with andThens := [] } : StructDecl).toDef sem).attrBody site mode l)
      ((r.toDef sem).attrBody site mode l) := by
  obtain ⟨-, -, -, -, ha, -⟩ := c94_struct hm hi h
  rw [← ha]
  exact ⟨c80_struct (r.toDef sem), c80_struct (r.toMetaDef sem), c80_struct_attr (r.toDef sem)⟩

/-- C80: the same for an enum. -/
theorem c80_enum_written {lib : SynLib} {d : EnumIn} {ss : List Stream} {ws : List EnumWord}
    (hm : ListStreams (deluxeAttrs d.attrs) ss) (hi : ItemsAll (EnumText lib) ss ws) {r : EnumDecl}
    (h : d.read lib = .ok r) (sem : EnumSem V) :
    let fs := (ws.filterMap EnumWord.andThen?).map sem.andThen
    DictFollowed fs (({ r with andThens := [] } : EnumDecl).toDef sem).dict (r.toDef sem).dict ∧
    ∀ site mode l, Followed fs ((({ r with andThens := [] } : EnumDecl).toDef sem).attrBody site mode l)
      ((r.toDef sem).attrBody site mode l) := by
  obtain ⟨-, -, -, ha, -⟩ := c94_enum hm hi h
  rw [← ha]
  exact ⟨c80_enum (r.toDef sem), c80_enum_attr (r.toDef sem)⟩

/-- C80: `c80_enum_written` applies to `#[deluxe(and_then = f)] #[deluxe(and_then = g)] enum E {}`, which is accepted:
`f` runs before `g`. -/
example : ∃ ss ws r,
    ListStreams (deluxeAttrs [deluxeList [.ident (txt "and_then") 1, .punct '=' false 2, .ident (txt "f") 3],
      deluxeList [.ident (txt "and_then") 4, .punct '=' false 5, .ident (txt "g") 6]]) ss ∧
    ItemsAll (EnumText demoLib) ss ws ∧
    EnumIn.read demoLib ⟨[], [deluxeList [.ident (txt "and_then") 1, .punct '=' false 2, .ident (txt "f") 3],
      deluxeList [.ident (txt "and_then") 4, .punct '=' false 5, .ident (txt "g") 6]]⟩ = .ok r ∧
    ws.filterMap EnumWord.andThen? = [[.ident (txt "f") 3], [.ident (txt "g") 6]] := by
  refine ⟨_, [.andThen [.ident (txt "f") 3]] ++ ([.andThen [.ident (txt "g") 6]] ++ []), _, .list (.list .nil),
    .cons (.last (by simp) ?_) (.cons (.last (by simp) ?_) .nil), rfl, rfl⟩
  · exact .andThen (keyedBy_ident 1 ⟨by simp, by simp [NoComma, Comma], .eq false 2⟩ (by simp [StartsColon2]))
  · exact .andThen (keyedBy_ident 4 ⟨by simp, by simp [NoComma, Comma], .eq false 5⟩ (by simp [StartsColon2]))

end

end Deluxe
