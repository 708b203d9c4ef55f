import Verif.Spec.Scope
import Verif.Model.Glue
/-!
# The variables of the generated code (macros/types/field.rs:300-1047, macros/types/struct.rs:151-391,
macros/types/variant.rs:53-478, macros/types/enum.rs:27-165, macros/parse_meta_item.rs, macros/parse_attributes.rs)

The quotations of the derive macros, reduced to the variables: which ones are bound, used and assigned to, and in which
blocks and closures.  All identifiers in the quotations have the span `Span::mixed_site()` (macros/util.rs:38-60), so
the expressions that the user writes in attributes do not see these variables and are left out; so are types, paths,
literals and method names.
-/
namespace Deluxe
open Code (skip use set bind block untyped)

/-- One piece of code after the other. -/
def codes : List Code → Code
  | [] => skip
  | c :: cs => .seq c (codes cs)

/-- The values of some variables, as in the arguments of a call. -/
def uses (xs : List Var) : Code := codes (xs.map use)

/-- `FieldData`, macros/types/field.rs:240-249; `attr` is `mode != TokenMode::ParseMetaItem` and `var` is
`matches!(target, ParseTarget::Var(_))`. -/
structure CodeData where
  attr : Bool
  var : Bool
  inlineE : Code
  allowedE : Code
  transparent : Bool
  variant : Bool
  allowUnknown : Bool

/-- `<#ty as ..>` with `ty` from `constraint_ty`, macros/types/field.rs:266-273, in the call of a function that takes
and returns nothing of that type: with transforms `ty` is `_`. -/
def countCode (f : FieldDecl) : Code := if f.transforms.isEmpty then skip else untyped

/-- `Field::to_field_names_tokens`, macros/types/field.rs:315-388 -/
def fieldNamesCode (fields : List FieldDecl) : Code :=
  if fields.any (·.isFlatten) then
    block [] (block [] (codes [bind .vec true,
      codes (fields.map fun f =>
        if f.isParsable then codes [if f.isFlatten then countCode f else skip, set .vec] else skip),
      use .vec]))
  else skip

/-- `Field::to_parse_call_tokens`, macros/types/field.rs:389-487.  `#inputs_expr` is `inputs` or
`&fork_inputs(inputs)` wherever this is called. -/
def callCode (f : FieldDecl) (allowedE : Code) : Code :=
  if f.isAppend then uses [.inputs, .prefix_]
  else if f.isRest then codes [use .inputs, allowedE]
  else match f.flatten with
    | some ⟨_, true, pre⟩ =>
      if f.ident.isSome then codes [use .inputs, use .span, if pre.isSome then use .prefix_ else skip]
      else uses [.inputs, .index]
    | _ =>
      if f.ident.isSome then
        match f.with_ with
        | some _ => block [] (codes [uses [.input, .p, .span], bind .value false, use .value])
        | none => uses [.input, .p, .span]
      else
        match f.with_ with
        | some _ => block [] (codes [use .input, bind .value false, use .value])
        | none => use .input

/-- `#name_format`, macros/types/field.rs:580-591, 613-624 -/
def nameFormatCode (attr : Bool) : Code :=
  if attr then codes [use .pathName, block [.pathName] (uses [.name, .pathName]), use .name] else use .name

/-- The entry for a field in `field_errors`, macros/types/field.rs:537-654; `extra` is `#extra_counts`. -/
def fieldErrorCode (named : Bool) (d : CodeData) (extra : Code) (i : Nat) (f : FieldDecl) : Code :=
  if f.isContainer || d.transparent || f.default.isSome || d.var then skip
  else if !named then
    if f.isFlat then
      codes [use (.field i), block [] (codes [bind .mode_ false, if d.variant then use .span else skip,
        block [.input] (codes [use .input, bind .inputs false, use .errors, callCode f d.allowedE,
          block [.v] (codes [use .v, set (.field i)]), set (.field i)]),
        if f.with_.isSome then skip else countCode f,
        block [.count] (codes [use .count, set .index])])]
    else
      codes [use (.field i), block [] (codes [use .mode_, use .inputs, bind .span false, use .index, extra,
        bind .name false,
        nameFormatCode d.attr, bind .name false, uses [.errors, .name, .span],
        block [.v] (codes [use .v, set (.field i)])])]
  else if !f.isFlat then
    codes [use (.field i), block [] (codes [use .prefix_, bind .name false, nameFormatCode d.attr, bind .name false,
      uses [.errors, .name, .span], block [.v] (codes [use .v, set (.field i)])])]
  else skip

/-- `field_errors`, macros/types/field.rs:520-655, from the field with the index `i` on.  `extra` has grown with the
flattened fields before. -/
def fieldErrorsCode (named : Bool) (d : CodeData) : Code → Nat → List FieldDecl → Code
  | _, _, [] => skip
  | extra, i, f :: fs =>
    .seq (fieldErrorCode named d extra i f)
      (fieldErrorsCode named d
        (if !named && !(f.isContainer || d.transparent) && f.isFlatten then .seq extra (countCode f) else extra) (i + 1) fs)

/-- One of `transforms`, macros/types/field.rs:659-678 -/
def transformCode (i : Nat) : TransformD → Code
  | .map _ => codes [use (.field i), bind (.field i) false]
  | .andThen _ => codes [use (.field i), block [.v] (codes [uses [.errors, .v], block [.v] (use .v)]),
      bind (.field i) false]

/-- The entry for a field in `field_sets`, macros/types/field.rs:656-690 -/
def fieldSetCode (i : Nat) (f : FieldDecl) : Code :=
  codes [if f.default.isSome then codes [use (.field i), block [] skip, bind (.field i) false] else skip,
    codes (f.transforms.map (transformCode i))]

/-- The entry for a field in `field_unwraps`, macros/types/field.rs:691-698 -/
def unwrapCode (var : Bool) (i : Nat) : Code :=
  if var then skip else codes [use (.field i), bind (.field i) false]

/-- `container_def`, macros/types/field.rs:507-519 -/
def containerCode (attr : Bool) (i : Nat) (f : FieldDecl) : Code :=
  if f.isContainer && attr then codes [use .obj, set (.field i)] else skip

/-- The entry for a field in `flat_fields`, macros/types/field.rs:724-744 -/
def flatFieldCode (d : CodeData) (i : Nat) (f : FieldDecl) : Code :=
  if f.isParsable && f.isFlat then
    codes [use .errors, callCode f d.allowedE, block [.val] (codes [use .val, set (.field i)]), set (.field i)]
  else skip

/-- `ret`, macros/types/field.rs:745-776, 795-818 -/
def retCode (var : Bool) (n : Nat) : Code :=
  if var then
    codes [codes ((List.range n).map fun i => codes [use (.field i), block [.val] (codes [use .val, set .target])]),
      use .target]
  else uses ((List.range n).map .field)

/-- The code of a field with its index, for all of them. -/
def perField (fields : List FieldDecl) (g : Nat → FieldDecl → Code) : Code :=
  codes (fields.zipIdx.map fun x => g x.2 x.1)

/-- `pre` of `Field::to_pre_post_tokens`, macros/types/field.rs:700-711, 777-780, 819-822, 839 -/
def preCode (shape : Shape) (fields : List FieldDecl) (transparent : Bool) : Code :=
  match shape with
  | .unit => skip
  | _ => codes [perField fields fun i _ => bind (.field i) true, if transparent then skip else bind .errors false]

/-- `post` of `Field::to_pre_post_tokens`, macros/types/field.rs:781-789, 823-830, 840-842 -/
def postCode (shape : Shape) (fields : List FieldDecl) (d : CodeData) : Code :=
  match shape with
  | .unit => skip
  | _ =>
    codes [
      if shape = .named then perField fields (flatFieldCode d) else skip,
      perField fields (containerCode d.attr),
      fieldErrorsCode (shape = .named) d skip 0 fields,
      perField fields fieldSetCode,
      if d.transparent then skip else use .errors,
      perField fields fun i _ => unwrapCode d.var i,
      retCode d.var fields.length]

/-- `ItemDef`, macros/types/field.rs:221-226, without the further traits. -/
structure ItemCode where
  parse : Code
  inline : Code
  flag : Option Code

/-- `Field::to_parsing_tokens`, macros/types/field.rs:848-1046, with `pre` and `post` -/
def itemCode (shape : Shape) (fields : List FieldDecl) (pre post : Code) (d : CodeData) : ItemCode :=
  let parse := codes [use .input, block [.input] d.inlineE]
  let anyFlat := fields.any fun f => f.isParsable && f.isFlat
  let flag := codes [bind .mode_ false, use .span, block [.input] d.inlineE]
  match shape with
  | .named =>
    ⟨parse,
      codes [pre, use .errors, use .inputs,
        block [.input, .p, .span] (codes [uses [.p, .prefix_],
          perField fields fun i f =>
            if f.isFlat || !f.isParsable then skip
            else block [] (codes [set (.field i), uses [.input, .span, .errors],
              block [.input, .p, .span] (callCode f d.allowedE)]),
          block [] (codes [
            if d.allowUnknown then skip
            else codes [use .validate, block [] (codes [uses [.p, .span], d.allowedE, use .errors])],
            use .input])]),
        post],
      some (codes [use .span, flag])⟩
  | .unnamed =>
    ⟨parse,
      codes [pre,
        if fields.any (·.isParsable) then
          codes [use .errors, use .inputs,
            block [.input, .inputs, .i] (codes [use .i,
              perField fields fun i f =>
                if f.isParsable && !f.isAppend && !f.isRest then
                  block [] (codes [set (.field i), uses [.input, .errors],
                    block [.input, .mode] (callCode f d.allowedE),
                    if !anyFlat then skip
                    else if f.isFlat then codes [countCode f, block [.count] (codes [use .count, set .index])]
                    else set .index])
                else skip])]
        else codes [use .inputs, block [.input] (use .input)],
        post],
      if d.var || (fields.filter (·.isParsable)).all fun f => f.isFlat || f.default.isSome then some flag else none⟩
  | .unit =>
    ⟨parse,
      codes [pre, if d.attr then codes [use .inputs, block [.input] (use .input)] else uses [.inputs, .mode_], post],
      some (codes [pre, post])⟩

/-- `post` with the functions of `and_then` at the structure, macros/types/struct.rs:178-196 -/
def thensCode (andThens : List (List Tok)) (post : Code) : Code :=
  if andThens.isEmpty then post
  else codes [block [] post, bind .ret false, bind .errors false, use .ret, bind .ret false,
    codes (andThens.map fun _ =>
      codes [use .ret, block [.v] (codes [bind .f false, uses [.errors, .f, .v]]), bind .ret false]),
    uses [.errors, .ret]]

/-- The field of a transparent structure, macros/types/struct.rs:204-216 -/
def transparentIndex (fields : List FieldDecl) : Nat :=
  (fields.findIdx? fun f => f.isParsable && !f.isFlat).getD 0

/-- `Struct::to_parsing_tokens`, macros/types/struct.rs:151-391: the code, and the functions of the further traits of
a transparent structure. -/
def StructDecl.code (d : StructDecl) (fields : List FieldDecl) (attr : Bool) (inlineE allowedE : Code) :
    ItemCode × List FnCode :=
  let data : CodeData :=
    { attr := attr, var := d.default.isSome, inlineE := inlineE, allowedE := allowedE, transparent := d.isTransparent,
      variant := false, allowUnknown := d.allowUnknown.getD false }
  let pre := preCode d.shape fields d.isTransparent
  let post := thensCode d.andThens (postCode d.shape fields data)
  let defaultSet := if d.default.isSome then bind .target true else skip
  if d.isTransparent then
    let pre := codes [pre, defaultSet, if d.shape = .unnamed then bind .index false else skip]
    let with_ := fun xs => codes [pre, uses xs, set (.field (transparentIndex fields)), post]
    let asked := fun (g : TransparentD → Option Bool) => ((d.transparent.bind g).getD false)
    (⟨with_ [.input, .mode_], with_ [.inputs, .mode_], some (with_ [.span])⟩,
      (if asked (·.flattenNamed) then [⟨[], skip⟩,
        ⟨[(.inputs, false), (.mode, false), (.prefix_, false), (.validate, false)],
          with_ [.inputs, .mode, .prefix_, .validate]⟩] else []) ++
      (if asked (·.flattenUnnamed) then [⟨[], skip⟩,
        ⟨[(.inputs, false), (.mode, false), (.index, false)], with_ [.inputs, .mode, .index]⟩] else []) ++
      (if asked (·.rest) then [⟨[(.inputs, false), (.exclude, false)], with_ [.inputs, .exclude]⟩] else []) ++
      (if asked (·.append) then [⟨[(.inputs, false), (.paths, false)], with_ [.inputs, .paths]⟩] else []))
  else
    let def_ := itemCode d.shape fields pre post data
    (⟨def_.parse, codes [defaultSet, def_.inline], def_.flag⟩, [])

/-- The functions that the `ParseMetaItem` derive generates for a structure, macros/parse_meta_item.rs:18-215,
354-402. -/
def StructDecl.metaFns (d : StructDecl) : List FnCode :=
  let fields := d.fields.map fillContainer
  let inlineE := fun (xs : Var) => match d.shape with
    | .unit => use xs
    | _ => uses [xs, .mode_]
  let (c, extra) := d.code fields false (inlineE .input) skip
  let own := d.isTransparent || d.shape = .unit
  [⟨[(.input, false), (.mode_, false)], c.parse⟩,
    ⟨[(.inputs, false), (.mode_, false)], if own then c.inline else inlineE .inputs⟩] ++
  (c.flag.toList.map fun g => ⟨[(.span, false)], g⟩) ++
  (if d.default.isSome then [⟨[(.name, false), (.span, false)], skip⟩] else []) ++
  extra ++
  if own then []
  else match d.shape with
    | .named =>
      [⟨[], fieldNamesCode fields⟩,
        ⟨[(.inputs, false), (.mode_, false), (.prefix_, false), (.validate, false)],
          codes [uses [.mode_, .inputs], bind .span false, c.inline]⟩,
        ⟨[], skip⟩,
        ⟨[(.inputs, false), (.mode, false), (.index_, false)], uses [.inputs, .mode]⟩]
    | .unnamed =>
      [⟨[], skip⟩,
        ⟨[(.inputs, false), (.mode_, false), (.index, d.fields.any (·.isFlat))], c.inline⟩]
    | .unit => []

/-- The functions of an attribute derive around the code for the type, macros/parse_attributes.rs:302-361 -/
def attrFns (attributes : List (List Tok)) (parse : Code) : List FnCode :=
  [⟨[(.path, false)], codes (attributes.map fun _ => use .path)⟩,
    ⟨[(.obj, false)], codes [use .obj, block [.inputs, .spans] (codes [use .spans, bind .span false,
      use .spans, bind .pathName false, use .span, bind .mode_ false, parse])]⟩]

/-- The functions that the attribute derives generate for a structure, macros/parse_attributes.rs:33-112 -/
def StructDecl.attrFns (d : StructDecl) : List FnCode :=
  let (c, _) := d.code d.fields true (uses [.inline, .input]) (use .allowed)
  Deluxe.attrFns d.attributes (codes [
    match d.shape with
    | .named => codes [fieldNamesCode d.fields, bind .allowed false, bind .validate false, bind .prefix_ false]
    | .unnamed => bind .index true
    | .unit => skip,
    c.inline])

/-! ## Enums -/

/-- `pre` of macros/types/variant.rs:119-139 -/
def VariantDecl.headCode (v : VariantDecl) : Code :=
  match v.shape with
  | .named => codes [fieldNamesCode v.fields, bind .allowed false, bind .validate false]
  | .unnamed => bind .index true
  | .unit => .skip

/-- The assignments to `value`, macros/types/variant.rs:96-106, 181-185, 214-221 -/
def valueCode (skips : Bool) : Code :=
  codes [block [.v] (codes [use .value, use .v, set .value]), if skips then use .input else .skip, use .value, set .value]

/-- `Variant::to_field_parsing_tokens`, macros/types/variant.rs:53-225; `flat` is `none` for a variant that is not
flattened, and tells for a flattened one whether it has no unique field. -/
def VariantDecl.code (v : VariantDecl) (attr : Bool) (flat : Option Bool) : Code :=
  let data : CodeData :=
    { attr := attr, var := false, inlineE := codes [set .inline, uses [.input, .mode_]], allowedE := use .allowed,
      transparent := v.transparent.getD false, variant := true, allowUnknown := v.allowUnknown.getD false }
  let pre := preCode v.shape v.fields data.transparent
  let post := postCode v.shape v.fields data
  if data.transparent then
    codes [pre, use .errors, uses [.input, .p, .span],
      block [.v] (codes [use .v, set (.field (transparentIndex v.fields)), post]), valueCode true]
  else
    let item := itemCode v.shape v.fields pre post
      (if flat.isNone then { data with attr := false } else data)
    match flat with
    | some empty =>
      let checks := empty && !data.allowUnknown
      codes [v.headCode,
        if checks then codes [use .validate, block [] (codes [use .errors, use .inputs,
          block [.input, .p, .span] (uses [.p, .span, .allowed, .errors, .input]),
          uses [.errors, .span, .prefix_]])] else .skip,
        block [] (codes [if checks then bind .validate false else .skip, item.inline]),
        bind .ret false, uses [.errors, .ret], valueCode false]
    | none =>
      codes [v.headCode, block [.inputs, .mode_] item.inline, bind .inline true, use .input,
        block [] (codes [use .span, bind .mode_ false, item.parse]),
        block [.buffer] (codes [set .inline, uses [.buffer, .span], block [.v] (uses [.buffer, .v])]),
        block [] (item.flag.getD (use .span)),
        block [.e] (use .e),
        bind .res false, uses [.errors, .res], valueCode true]

/-- `validate`, macros/types/variant.rs:370-380 -/
def enumValidateCode (allowUnknown : Bool) : Code :=
  if allowUnknown then .skip
  else codes [use .validate, block [] (codes [use .inputs,
    block [.input, .p, .span] (uses [.p, .span, .allowed, .errors, .input])])]

/-- An entry of `variant_matches`, macros/types/variant.rs:264-295 -/
def VariantDecl.armCode (v : VariantDecl) (attr : Bool) : Code :=
  if v.isFlatten || v.isSkipped then .skip
  else block [.k] (codes [use .key, block [.key] (uses [.span, .prefix_, .key, .k, .errors]), use .key,
    block [] (codes [use .k, codes (v.idents.map fun _ => block [] (set .key))]), v.code attr none])

/-- An entry of `flat_matches`, macros/types/variant.rs:305-368; if it is there, `paths` is too. -/
def VariantDecl.flatArmCode (v : VariantDecl) (attr allowUnknown : Bool) : Code :=
  if v.isSkipped || !v.isFlatten then .skip
  else codes [if v.fieldKey.isEmpty then .skip else use .paths,
    block [] (codes [v.code attr (some v.fieldKey.isEmpty),
      if allowUnknown || v.allowUnknown.getD false then .skip
      else codes [use .validate, block [] (codes [set .paths, use .paths, use .errors])]])]

/-- `Variant::to_parsing_tokens`, macros/types/variant.rs:254-456 -/
def EnumDecl.code (d : EnumDecl) (attr : Bool) : Code :=
  let allowUnknown := d.allowUnknown.getD false
  let anyFlat := d.variants.any fun v => v.isFlatten && !v.isSkipped
  let emptyMatch :=
    if d.variants.any fun v => !v.isSkipped && v.isFlatten && v.fieldKey.isEmpty then .skip
    else if d.default.isSome then block [] (set .value)
    else block [] (codes [enumValidateCode allowUnknown, uses [.span, .prefix_, .errors]])
  let disallowFlats :=
    if anyFlat && !allowUnknown then
      codes [use .validate, block [] (codes [use .key, set .paths, uses [.paths, .key, .errors]])]
    else .skip
  codes [bind .key true, bind .value true, if anyFlat then bind .paths true else .skip, bind .errors false,
    use .errors, use .inputs,
    block [.input, .p, .span] (codes [use .input, bind .inputs false, use .inputs, bind .inputs false,
      uses [.p, .prefix_], bind .cur false,
      if anyFlat then codes [use .cur, block [.cur] (codes [uses [.cur, .span], set .paths])] else .skip,
      use .cur, codes (d.variants.map (·.armCode attr)), use .input]),
    use .value, block [] (codes [disallowFlats, enumValidateCode allowUnknown]),
    use .value, block [] (codes [codes (d.variants.map (·.flatArmCode attr allowUnknown)), emptyMatch]),
    use .value, bind .value false,
    codes (d.andThens.map fun _ =>
      codes [use .value, block [.v] (codes [bind .f false, uses [.errors, .f, .v]]), bind .value false]),
    uses [.inputs, .errors, .value]]

/-- `Enum::to_field_names_tokens`, macros/types/enum.rs:68-165.  For a flattened field with a prefix the code puts the
result of `join_paths`, a `Vec<Cow<str>>` (core/parse_helpers.rs:780), in a cell for a `Vec<String>`. -/
def EnumDecl.namesCode (d : EnumDecl) : Code :=
  if d.variants.any fun v => v.isFlatten && v.fields.any (·.isFlat) then
    block [] (block [] (codes [bind .vec true,
      codes (d.variants.map fun v => codes [set .vec,
        if v.isFlatten && v.fields.any fun f => f.flatten.any fun x => x.value && x.pre.isSome then untyped else .skip]),
      use .vec]))
  else .skip

/-- The functions that the `ParseMetaItem` derive generates for an enum, macros/parse_meta_item.rs:217-324, 354-402 -/
def EnumDecl.metaFns (d : EnumDecl) : List FnCode :=
  [⟨[(.input, false), (.mode_, false)], uses [.input, .mode_]⟩,
    ⟨[(.inputs, false), (.mode_, false)], uses [.inputs, .mode_]⟩,
    ⟨[(.span, false)], use .span⟩] ++
  (if d.default.isSome then [⟨[(.name, false), (.span, false)], .skip⟩] else []) ++
  [⟨[], d.namesCode⟩,
    ⟨[(.inputs, false), (.mode_, false), (.prefix_, false), (.validate, false)],
      codes [uses [.mode_, .inputs], bind .span false, bind .allowed false, d.code false]⟩,
    ⟨[], .skip⟩,
    ⟨[(.inputs, false), (.mode, false), (.index_, false)], uses [.inputs, .mode]⟩]

/-- The functions that the attribute derives generate for an enum, macros/parse_attributes.rs:114-172 -/
def EnumDecl.attrFns (d : EnumDecl) : List FnCode :=
  Deluxe.attrFns d.attributes (codes [d.namesCode, bind .allowed false, bind .validate false, bind .prefix_ false,
    d.code true])

/-- The functions that a derive macro generates for an accepted definition. -/
def Decl.fns (which : Derive) : Decl → List FnCode
  | .struct d => match which with
    | .metaItem => d.metaFns
    | .attrs _ => d.attrFns
  | .enum d => match which with
    | .metaItem => d.metaFns
    | .attrs _ => d.attrFns

end Deluxe
