import Verif.Tree
import Verif.Instr

/-!
# Specification of one-pass computation

Each requested quantity has a value of its own, defined without graph, instructions or variables.
-/

namespace Verif

mutual
/-- The value of a tree: fields and broadcast constants are given, functions are applied to the values of their
arguments. -/
def own {V : Type} (lib : Lib V) (ext : Node → Except Err V) : Node → Except Err V
  | .const v => .ok (lib.const v)
  | .call f args =>
    match lib.fn f with
    | none => .error .assertion
    | some g => do g (← ownL lib ext args)
  | t => ext t
/-- The values of the arguments. -/
def ownL {V : Type} (lib : Lib V) (ext : Node → Except Err V) : List Node → Except Err (List V)
  | [] => .ok []
  | a :: as => do
    let v ← own lib ext a
    let vs ← ownL lib ext as
    .ok (v :: vs)
end

/-- The arguments that are not constants. -/
def T.needs : Node → List Node
  | .call _ args => args.filter fun a => !a.isConst
  | _ => []

/-- The fields and broadcast constants. -/
def T.isSource : Node → Bool
  | .const _ => false
  | .call _ _ => false
  | _ => true

mutual
/-- Every function in the tree has an argument that is not a constant, and the tree is not a constant. -/
def T.grounded : Node → Bool
  | .const _ => false
  | .call _ args => args.any (fun a => !a.isConst) && T.groundedL args
  | _ => true
/-- The same for all arguments that are not constants. -/
def T.groundedL : List Node → Bool
  | [] => true
  | a :: as => (a.isConst || a.grounded) && T.groundedL as
end

mutual
/-- All subexpressions of a tree, itself included. -/
def T.subs : Node → List Node
  | .call f args => .call f args :: T.subsL args
  | t => [t]
/-- All subexpressions of the arguments. -/
def T.subsL : List Node → List Node
  | [] => []
  | a :: as => a.subs ++ T.subsL as
end

/-- Is it a function call? -/
def T.isCall : Node → Bool
  | .call _ _ => true
  | _ => false

/-- The different function calls of the goals that can be computed from fields. -/
def distinctCalls (goals : List Node) : List Node :=
  (goals.flatMap T.subs).dedup.filter fun x => x.isCall && x.grounded

/-- The different fields and broadcast constants of the goals. -/
def distinctSources (goals : List Node) : List Node :=
  (goals.flatMap T.subs).dedup.filter fun x => x.isSource

/-- The values of the nodes in this order, of which those of the goals are kept. -/
def runAll {V : Type} (lib : Lib V) (ext : Node → Except Err V) (goals : List Node) : List Node →
    Except Err (List (Node × V))
  | [] => .ok []
  | x :: xs => do
    let v ← own lib ext x
    let r ← runAll lib ext goals xs
    .ok (if x ∈ goals then (x, v) :: r else r)

end Verif
