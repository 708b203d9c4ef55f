import Verif.Model.Helpers
/-!
# Path strings, attribute paths, key sets (core/parse_helpers.rs, core/validations.rs)
-/
namespace Deluxe

/-- `str::ends_with("::")`. -/
def endsColon2 (s : Str) : Bool := [':', ':'].isSuffixOf s

/-- core/parse_helpers.rs:746-754 -/
def joinPath (pre path : Str) : Str :=
  if pre.isEmpty then path
  else if endsColon2 pre then pre ++ path
  else pre ++ [':', ':'] ++ path

/-- core/parse_helpers.rs:762-776 -/
def joinPrefix (pre path : Str) : Str :=
  if pre.isEmpty then path ++ [':', ':']
  else (if endsColon2 pre then pre else pre ++ [':', ':']) ++ path ++ [':', ':']

/-- core/parse_helpers.rs:780-782 -/
def joinPaths (pre : Str) (paths : List Str) : List Str := paths.map (joinPath pre)

/-- `str::strip_prefix`, used by the generated code (macros/types/field.rs). -/
def stripPrefix : Str → Str → Option Str
  | [], s => some s
  | _ :: _, [] => none
  | p :: ps, c :: cs => if p = c then stripPrefix ps cs else none

/-- An attribute path with possible generic arguments per segment (`syn::Path`). -/
structure APath where
  leading : Bool
  segs : List (Str × Bool)
  span : Span

/-- Loop of core/parse_helpers.rs:799-806 over `path.segments` with the index `i` into `segs`.
An index out of bounds would be a panic, modelled by `none`. -/
def pathMatchesLoop (segs : List Str) : Nat → List (Str × Bool) → Option Bool
  | _, [] => some true
  | i, (ident, args) :: rest =>
    if args then some false
    else match segs[i]? with
      | none => none
      | some s => if ident ≠ s then some false else pathMatchesLoop segs (i + 1) rest

/-- core/parse_helpers.rs:795-808; `none` is a panic -/
def pathMatches (path : APath) (segs : List Str) : Option Bool :=
  if path.segs.length ≠ segs.length then some false
  else pathMatchesLoop segs 0 path.segs

/-! ## Key sets: `HashMap<SmallString, Span>` as an association list -/

/-- `HashMap<SmallString<'static>, Span>`: association list, at most one entry per key. -/
abbrev PathMap := List (Str × Span)

namespace PathMap
/-- `HashMap::get`. -/
def get (m : PathMap) (k : Str) : Option Span :=
  match m with
  | [] => none
  | (k', sp) :: rest => if k' = k then some sp else PathMap.get rest k
/-- `HashMap::contains_key`. -/
def contains (m : PathMap) (k : Str) : Bool := (m.get k).isSome
/-- `HashMap::remove`. -/
def remove (m : PathMap) (k : Str) : PathMap := m.filter (·.1 ≠ k)
/-- `HashMap::insert`. -/
def insert (m : PathMap) (k : Str) (sp : Span) : PathMap := (k, sp) :: m.remove k
end PathMap

/-- core/parse_helpers.rs:815-818 -/
def hasPaths (paths : PathMap) (keys : List (List Str)) : Bool :=
  keys.all fun ks => ks.any fun i => paths.contains i

/-- core/parse_helpers.rs:824-831 -/
def removePaths (paths : PathMap) (keys : List (Str × List Str)) : PathMap :=
  keys.foldl (fun m pk => pk.2.foldl (fun m path => m.remove (joinPath pk.1 path)) m) paths

/-- core/parse_helpers.rs:838-855 -/
def disallowPaths (paths : PathMap) (keys : List (Str × List Str)) (cur : Str) (errors : Errors) :
    Errors :=
  keys.foldl (fun errs pk => pk.2.foldl (fun errs path =>
    match paths.get (joinPath pk.1 path) with
    | some span => errs.push span (.notAllowedWith (joinPath pk.1 path) cur)
    | none => errs) errs) errors

/-- core/parse_helpers.rs:1037-1046 -/
def onlyOneVariant (span : Span) (pre : Str) (va vb : Str) (errors : Errors) : Errors :=
  errors.push span (.onlyOneVariant (joinPath pre va) (joinPath pre vb))

/-- core/parse_helpers.rs:1056-1081.  Simplified: the list of names is kept as data; `Text.render`
joins it as the source does. -/
def variantRequired (span : Span) (pre : Str) (variants : List (List (List Str))) (errors : Errors) :
    Errors :=
  errors.push span (.expectedOneOf (variants.map (·.map (·.map (joinPath pre)))))

/-! ## Attribute lists -/

/-- `syn::Meta`: bare path, delimited list, or `= value` (the value's tokens). -/
inductive Meta
  | path
  | list (d : Delim) (toks : List Tok)
  | nameValue (toks : List Tok)

/-- `syn::Attribute`. -/
structure Attr where
  path : APath
  body : Meta

/-- core/parse_helpers.rs:944-956 and 983-995.  The span of the rebuilt group is the call site
(`Group::new`). -/
def Meta.tokens : Meta → List Tok
  | .path => []
  | .list d toks => [.group d toks callSite callSite]
  | .nameValue toks => toks

/-- Key string of an attribute path (core/parse_meta.rs:1404-1418).  Simplified: the text of generic
arguments is dropped. -/
def APath.key (p : APath) : Str := keyString (p.segs.map (·.1))

/-- core/parse_helpers.rs:935-960; `pathMatches` is the trait method -/
def refTokens (matchesPath : APath → Bool) (attrs : List Attr) : List (List Tok × Str × Span) :=
  attrs.filterMap fun a =>
    if matchesPath a.path then some (a.body.tokens, a.path.key, a.path.span) else none

/-- Loop of core/parse_helpers.rs:976-1000 with the index into the shrinking vector. -/
def takeLoop (matchesPath : APath → Bool) (attrs : List Attr) (index : Nat)
    (tokens : List (List Tok × Str × Span)) : List (List Tok × Str × Span) × List Attr :=
  if h : index < attrs.length then
    let attr := attrs[index]
    if matchesPath attr.path then
      takeLoop matchesPath (attrs.eraseIdx index) index
        (tokens ++ [(attr.body.tokens, attr.path.key, attr.path.span)])
    else takeLoop matchesPath attrs (index + 1) tokens
  else (tokens, attrs)
termination_by attrs.length - index
decreasing_by
  · rw [List.length_eraseIdx_of_lt h]; omega
  · omega

/-- core/parse_helpers.rs:968-1002 after `attrs_mut` succeeded: extracted tokens, remaining
attributes -/
def takeTokens (matchesPath : APath → Bool) (attrs : List Attr) :
    List (List Tok × Str × Span) × List Attr :=
  takeLoop matchesPath attrs 0 []

/-! ## Validations -/

/-- core/validations.rs:10-33.  Each attribute is its name and the span of its value if present. -/
def onlyOne (attrs : List (Str × Option Span)) (pre : Str) (errors : Errors) : Errors :=
  let present := attrs.filterMap (·.2)
  if (present.take 2).length = 2 then
    let names := attrs.map fun a => joinPath pre a.1
    present.foldl (fun errs sp => errs.push sp (.onlyOneOf names)) errors
  else errors

/-- `search.next().map(|f| f.is_some()).unwrap_or(false)`, core/validations.rs:48 -/
def firstIsSome : List (Str × Option Span) → Bool
  | [] => false
  | a :: _ => a.2.isSome

/-- core/validations.rs:40-71 -/
def allOrNone (attrs : List (Str × Option Span)) (pre : Str) (errors : Errors) : Errors :=
  if attrs.tail.any (fun a => a.2.isSome != firstIsSome attrs) then
    let names := attrs.filterMap fun a => if a.2.isNone then some (joinPath pre a.1) else none
    attrs.foldl (fun errs a =>
      match a.2 with
      | some sp => errs.push sp (.mustAlsoBeSet names a.1)
      | none => errs) errors
  else errors

end Deluxe
