import Verif.Model.Enum
/-!
# The cells of `field_names`

A derived `field_names()` with flattened fields keeps its list in a `static CELL: OnceCell<..>`
(macros/types/field.rs:324-375, macros/types/enum.rs:102-106, 149-160).  A static item exists once in the program, also
if it is declared inside a generic function: all instances of a generic type share the cells of its derive.  The rest
of the model uses the lists themselves; this file follows the cells.

Simplified: one thread.  (With several threads `get_or_init` waits for the thread that runs the initializer; proc macros
of a crate run on one thread.)  Types are finite trees, so a type that flattens itself is not described.
-/
namespace Deluxe

/-- A static cell: the derive, the variant (0 for the whole type) and the number of the cell in it. -/
abbrev CellId := Nat × Nat × Nat

/-- `once_cell::sync::OnceCell<Vec<..>>`, src/lib.rs:591 -/
inductive CellState
  | empty | running | full (names : List Str)

/-- All cells of the program. -/
abbrev Cells := CellId → CellState

/-- The cells when the program starts. -/
def Cells.start : Cells := fun _ => .empty

def Cells.put (cs : Cells) (c : CellId) (s : CellState) : Cells := fun i => if i = c then s else cs i

/-- `OnceCell::get_or_init`: no outcome if the cell is asked for while its own initializer runs.  (Documented as an
error with unspecified outcome; the implementation waits for ever.) -/
def Cells.getOrInit (c : CellId) (init : Cells → Option (List Str) × Cells) (cs : Cells) : Option (List Str) × Cells :=
  match cs c with
  | .full l => (some l, cs)
  | .running => (none, cs)
  | .empty =>
    match init (cs.put c .running) with
    | (some l, cs') => (some l, cs'.put c (.full l))
    | (none, cs') => (none, cs')

/-- The code of a `field_names()`, with the code of the functions that it calls. -/
inductive NamesCode
  /-- `vec` -/
  | done
  /-- `vec.push("..")` for each of the names, macros/types/field.rs:361-364 -/
  | push (names : List Str) (next : NamesCode)
  /-- `vec.extend_from_slice(..)` or `extend_from_owned(&mut vec, ..)`, macros/types/field.rs:335-360 -/
  | extend (inner next : NamesCode)
  /-- `join_paths(prefix, ..)`, macros/types/field.rs:341 -/
  | prefixed (pre : Str) (inner : NamesCode)
  /-- `CELL.get_or_init(|| ..)`, macros/types/field.rs:338-341, 367-374 -/
  | cell (id : CellId) (body : NamesCode)

namespace NamesCode

/-- Runs the code. -/
def run : NamesCode → Cells → Option (List Str) × Cells
  | done, cs => (some [], cs)
  | push names next, cs =>
    match next.run cs with
    | (some l, cs') => (some (names ++ l), cs')
    | (none, cs') => (none, cs')
  | extend inner next, cs =>
    match inner.run cs with
    | (some l, cs1) =>
      match next.run cs1 with
      | (some l', cs2) => (some (l ++ l'), cs2)
      | (none, cs2) => (none, cs2)
    | (none, cs1) => (none, cs1)
  | prefixed pre inner, cs =>
    match inner.run cs with
    | (some l, cs') => (some (joinPaths pre l), cs')
    | (none, cs') => (none, cs')
  | cell id body, cs => Cells.getOrInit id body.run cs

/-- Calls in the order in which a program makes them. -/
def runAll : List NamesCode → Cells → List (Option (List Str)) × Cells
  | [], cs => ([], cs)
  | t :: ts, cs =>
    let (r, cs1) := t.run cs
    let (rs, cs2) := runAll ts cs1
    (r :: rs, cs2)

end NamesCode

variable {V : Type}

/-- macros/types/field.rs:328-365: the statement for one field; `id` is its own cell, `inner` the code of
`field_names()` of its type. -/
def Field.namesCode (f : Field V) (id : CellId) (inner next : NamesCode) : NamesCode :=
  match f.flatten with
  | some ⟨true, some p⟩ => .extend (.cell id (.prefixed p inner)) next
  | some ⟨true, none⟩ => .extend inner next
  | _ => .push f.idents next

/-- macros/types/field.rs:328-365, 377-384: the statements for the fields of the structure that derive number `k` is for;
`inner i` is the code for the type of the `i`-th field. -/
def structNamesBody (k : Nat) (inner : Nat → NamesCode) (fields : List (Field V)) : NamesCode :=
  (fields.zipIdx.filter fun x => x.1.isParsable).foldr
    (fun x next => x.1.namesCode (k, 0, x.2 + 1) (inner x.2) next) .done

/-- macros/types/field.rs:315-388: `field_names()` of a structure. -/
def structNamesCode (k : Nat) (inner : Nat → NamesCode) (fields : List (Field V)) : NamesCode :=
  if fields.any (·.isFlatten) then .cell (k, 0, 0) (structNamesBody k inner fields) else structNamesBody k inner fields

/-- macros/types/enum.rs:73-148: the statements for variant `j`. -/
def Variant.namesCode (v : Variant V) (k j : Nat) (inner : Nat → NamesCode) (next : NamesCode) : NamesCode :=
  if v.isFlatten then
    (v.fields.zipIdx.filter fun x => x.1.isFlatten).foldr
      (fun x next => x.1.namesCode (k, j + 1, x.2) (inner x.2) next)
      (.push (v.fields.flatMap fun f => if f.isFlatten then [] else f.idents) next)
  else .push (if v.isSkipped then [] else v.idents) next

/-- macros/types/enum.rs:68-165; `inner j i` is the code for the type of field `i` of variant `j`. -/
def enumNamesCode (k : Nat) (inner : Nat → Nat → NamesCode) (e : EnumDef V) : NamesCode :=
  let body := e.variants.zipIdx.foldr (fun x next => x.1.namesCode k x.2 (inner x.2) next) .done
  if e.variants.any (fun v => v.isFlatten && v.fields.any (·.isFlat)) then .cell (k, 0, 0) body else body

end Deluxe
