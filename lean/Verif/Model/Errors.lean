import Verif.Model.Basic
/-!
# `Errors` (core/util.rs:19-239)
-/
namespace Deluxe

/-- `Errors`, core/util.rs:22-25: an optional `syn::Error` (the `RefCell` is modelled by returning
the new value). -/
structure Errors where
  inner : Option SynErr

namespace Errors
/-- core/util.rs:30-34 -/
def new : Errors := ⟨none⟩
/-- core/util.rs:37-39 -/
def isEmpty (e : Errors) : Bool := e.inner.isNone
/-- core/util.rs:42-44 -/
def clear (_ : Errors) : Errors := ⟨none⟩
/-- core/util.rs:68-75 -/
def pushSyn (e : Errors) (x : SynErr) : Errors :=
  match e.inner with
  | some s => ⟨some (s.combine x)⟩
  | none => ⟨some x⟩
/-- core/util.rs:47-49 -/
def push (e : Errors) (span : Span) (t : Text) : Errors := e.pushSyn (.new span t)
/-- core/util.rs:52-54 -/
def pushCallSite (e : Errors) (t : Text) : Errors := e.push callSite t
/-- core/util.rs:81-89.  A panic of the argument is propagated by the callers, see `tryPush`. -/
def pushResult {α} (e : Errors) (r : Except SynErr α) : Errors × Option α :=
  match r with
  | .ok a => (e, some a)
  | .error x => (e.pushSyn x, none)
/-- core/util.rs:92-103 -/
def extend (e : Errors) (xs : List SynErr) : Errors :=
  match e.inner with
  | some s => ⟨some (s.extend xs)⟩
  | none =>
    match xs with
    | [] => ⟨none⟩
    | x :: rest => ⟨some (x.extend rest)⟩
/-- core/util.rs:109-115 -/
def intoResult {α} (e : Errors) (a : α) : Res α :=
  match e.inner with
  | some x => .err x
  | none => .ok a
/-- core/util.rs:121-123 -/
def check (e : Errors) : Res Unit := e.intoResult ()
/-- core/util.rs:130-136, panics when empty -/
def unwrapErr (e : Errors) : Res SynErr :=
  match e.inner with
  | some x => .ok x
  | none => .panic
/-- core/util.rs:143-145 -/
def bail {α} (e : Errors) : Res α :=
  match e.unwrapErr with
  | .ok x => .err x
  | _ => .panic
/-- core/util.rs:195-202 -/
def ofErr (x : SynErr) : Errors := ⟨some x⟩
/-- core/util.rs:204-216 -/
def ofList (xs : List SynErr) : Errors :=
  match xs with
  | [] => ⟨none⟩
  | x :: rest => ⟨some (x.extend rest)⟩
/-- core/util.rs:218-239, iteration order of the messages -/
def toList (e : Errors) : List Msg :=
  match e.inner with
  | some x => x.toList
  | none => []
/-- core/util.rs:152-165: one token stream holding all `compile_error!` invocations, if any. -/
def intoCompileErrors (e : Errors) : List (List Msg) :=
  match e.inner with
  | some x => [x.toList]
  | none => []
end Errors

end Deluxe
