/-!
# Names of variables in Rust code

How Rust resolves the names of local variables: a use of a variable needs a binding that is in force, an assignment
needs one with `mut`, a binding is in force until the block that it stands in ends, closures and blocks see the
variables around them, functions see only their parameters.
-/
namespace Deluxe

/-- The variables that occur in the code that the derive macros generate; `field i` is `field0`, `field1`, … -/
inductive Var
  | input | inputs | mode | mode_ | span | spans | prefix_ | validate | allowed | index | index_ | errors | target | p | obj
  | pathName | path | value | key | k | cur | paths | ret | res | inline | buffer | v | val | name | count | f | vec | i
  | e | exclude
  | field (i : Nat)
  deriving DecidableEq

/-- Code, as far as its variables go. -/
inductive Code
  /-- nothing that has to do with variables -/
  | skip
  /-- one after the other -/
  | seq (a b : Code)
  /-- the value of a variable, or a reference to it -/
  | use (x : Var)
  /-- `x = ..`, `x += ..`, `x.y = ..` or `&mut x` -/
  | set (x : Var)
  /-- `let x` or `let mut x` -/
  | bind (x : Var) (isMut : Bool)
  /-- a block, the arm of a `match` with the variables of its pattern, or a closure with its parameters -/
  | block (params : List Var) (body : Code)
  /-- an expression that has a type error, or a type written `_` that nothing determines -/
  | untyped

/-- The variables in force, and whether they are `mut`. -/
abbrev Scope := Var → Option Bool

/-- With a further binding, which hides one with the same name. -/
def Scope.add (sc : Scope) (x : Var) (isMut : Bool) : Scope := fun y => if y = x then some isMut else sc y

/-- With further parameters. -/
def Scope.addAll (sc : Scope) : List Var → Scope
  | [] => sc
  | x :: xs => (sc.add x false).addAll xs

/-- The variables in force after the code, if all its names can be resolved. -/
def Code.check : Code → Scope → Option Scope
  | .skip, sc => some sc
  | .seq a b, sc => (a.check sc).bind b.check
  | .use x, sc => if (sc x).isSome then some sc else none
  | .set x, sc => if sc x = some true then some sc else none
  | .bind x m, sc => some (sc.add x m)
  | .block ps b, sc => (b.check (sc.addAll ps)).map fun _ => sc
  | .untyped, sc => some sc

/-- No part of the code is known to have a type error. -/
def Code.typed : Code → Bool
  | .seq a b => a.typed && b.typed
  | .block _ b => b.typed
  | .untyped => false
  | _ => true

/-- A function: its parameters, with `mut` or not, and its body. -/
structure FnCode where
  params : List (Var × Bool)
  body : Code

/-- All names in the function can be resolved. -/
def FnCode.Resolves (g : FnCode) : Prop :=
  (g.body.check (g.params.foldl (fun sc q => sc.add q.1 q.2) fun _ => none)).isSome = true

/-- No part of the function is known to have a type error. -/
def FnCode.Typed (g : FnCode) : Prop := g.body.typed = true

instance (g : FnCode) : Decidable g.Resolves := inferInstanceAs (Decidable (_ = true))

instance (g : FnCode) : Decidable g.Typed := inferInstanceAs (Decidable (_ = true))

end Deluxe
