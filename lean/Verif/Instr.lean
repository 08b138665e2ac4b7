import Verif.Tree

/-!
# From the requested quantities to instructions, and their execution

Expressions are shared: equal subexpressions are one node of a graph.  The order in which Python iterates
over sets is a parameter of the model.
-/

namespace Verif

section
variable {N : Type} [DecidableEq N]

mutual
/-- Equality of trees (expr.py: `__eq__` of `Const`, `Name`, `BroadcastConst`, `Predicate` and `Call`). -/
def T.decEq : (a b : T N) → Decidable (a = b)
  | .const v, .const w => decidable_of_iff (v = w) (by simp)
  | .bconst m v, .bconst n w => decidable_of_iff (m = n ∧ v = w) (by simp)
  | .name s, .name t => decidable_of_iff (s = t) (by simp)
  | .pred s b, .pred t c => decidable_of_iff (s = t ∧ b = c) (by simp)
  | .call f as, .call g bs =>
    have := T.decEqL as bs
    decidable_of_iff (f = g ∧ as = bs) (by simp)
  | .const _, .bconst _ _ => isFalse (by simp)
  | .const _, .name _ => isFalse (by simp)
  | .const _, .pred _ _ => isFalse (by simp)
  | .const _, .call _ _ => isFalse (by simp)
  | .bconst _ _, .const _ => isFalse (by simp)
  | .bconst _ _, .name _ => isFalse (by simp)
  | .bconst _ _, .pred _ _ => isFalse (by simp)
  | .bconst _ _, .call _ _ => isFalse (by simp)
  | .name _, .const _ => isFalse (by simp)
  | .name _, .bconst _ _ => isFalse (by simp)
  | .name _, .pred _ _ => isFalse (by simp)
  | .name _, .call _ _ => isFalse (by simp)
  | .pred _ _, .const _ => isFalse (by simp)
  | .pred _ _, .bconst _ _ => isFalse (by simp)
  | .pred _ _, .name _ => isFalse (by simp)
  | .pred _ _, .call _ _ => isFalse (by simp)
  | .call _ _, .const _ => isFalse (by simp)
  | .call _ _, .bconst _ _ => isFalse (by simp)
  | .call _ _, .name _ => isFalse (by simp)
  | .call _ _, .pred _ _ => isFalse (by simp)
/-- Equality of argument lists. -/
def T.decEqL : (as bs : List (T N)) → Decidable (as = bs)
  | [], [] => isTrue rfl
  | a :: as, b :: bs =>
    have := T.decEq a b
    have := T.decEqL as bs
    decidable_of_iff (a = b ∧ as = bs) (by simp)
  | [], _ :: _ => isFalse (by simp)
  | _ :: _, [] => isFalse (by simp)
end

instance : DecidableEq (T N) := T.decEq
end

/-- A node of the graph: `CallGraphNode`, which is equal to another one if the goals are
(instr.py 35-65). -/
abbrev Node := T String

/-- Is it a `Const`? -/
def T.isConst {N : Type} : T N → Bool
  | .const _ => true
  | _ => false

/-- Is it a `BroadcastConst`? -/
def T.isBroadcast {N : Type} : T N → Bool
  | .bconst _ _ => true
  | _ => false

/-- The graph that `grow` builds: the table of nodes, the pairs (required, requiring), and one entry for every
increment of `numrequiredby`. -/
structure Graph where
  table : List Node
  edges : List (Node × Node)
  num : List Node

/-- Add to the table unless it is there. -/
def Graph.insert (g : Graph) (t : Node) : Graph :=
  if t ∈ g.table then g else { g with table := g.table ++ [t] }

/-- `self.requires.add(node)` and `node.requiredby.add(self)`: sets, so only once. -/
def Graph.link (g : Graph) (c p : Node) : Graph :=
  if (c, p) ∈ g.edges then g else { g with edges := g.edges ++ [(c, p)] }

mutual
/-- `CallGraphNode.grow` (instr.py 67-91). -/
def grow : Node → Graph → Graph
  | .call f args, g =>
    let g' := growArgs (.call f args) args (g.insert (.call f args))
    { g' with num := g'.num ++ [.call f args] }
  | t, g =>
    let g' := g.insert t
    { g' with num := g'.num ++ [t] }
/-- The loop over the arguments (instr.py 76-84). -/
def growArgs (p : Node) : List Node → Graph → Graph
  | [], g => g
  | a :: as, g =>
    if a.isConst then growArgs p as g
    else growArgs p as (grow a ((g.insert a).link a p))
end

/-- Growing all goals into an empty table (fill.py 49-52). -/
def growAll (goals : List Node) : Graph := goals.foldl (fun g t => grow t g) ⟨[], [], []⟩

/-- `node.requires`. -/
def Graph.requires (g : Graph) (p : Node) : List Node := (g.edges.filter fun e => e.2 = p).map (·.1)

/-- `node.requiredby`. -/
def Graph.requiredby (g : Graph) (c : Node) : List Node := (g.edges.filter fun e => e.1 = c).map (·.2)

mutual
/-- `CallGraphNode.sources` (instr.py 93-111). -/
def T.sources : Node → List Node
  | .const _ => []
  | .call _ args => T.sourcesL args
  | t => [t]
/-- The union over the arguments that are not constants. -/
def T.sourcesL : List Node → List Node
  | [] => []
  | a :: as => (if a.isConst then [] else a.sources) ++ T.sourcesL as
end

/-- `recurse(node)` of `walkdown` (instr.py 244-253): the nodes seen so far in the order in which they were
seen.  `ord` is the order of `pairs`, which depends on `numrequiredby` and on the nodes.  The first argument
bounds the depth of the recursion; `walk_complete` shows that the bound in `walkdown` is never reached. -/
def visit (g : Graph) (ord : List Node → List Node) : ℕ → List Node → Node → List Node
  | 0, seen, _ => seen
  | k + 1, seen, n =>
    if n ∈ seen then seen
    else (ord (g.requiredby n)).foldl
      (fun s x => if (g.requires x).all (· ∈ s) then visit g ord k s x else s) (seen ++ [n])

mutual
/-- The height of a tree. -/
def T.height : Node → ℕ
  | .call _ args => T.heightL args + 1
  | _ => 0
/-- The largest height. -/
def T.heightL : List Node → ℕ
  | [] => 0
  | a :: as => max a.height (T.heightL as)
end

/-- `walkdown(sources)` (instr.py 241-258). -/
def walkdown (g : Graph) (ord : List Node → List Node) (srcs : List Node) : List Node :=
  (srcs.filter (fun s => !s.isBroadcast) ++ srcs.filter (fun s => s.isBroadcast)).foldl
    (visit g ord (T.heightL g.table + 1)) []

/-- The instructions (instr.py 291-340); variable `n` stands for the name `"x{n}"`. -/
inductive Ins
  | param (n : ℕ) (extern : Node)
  | assign (n : ℕ) (expr : T ℕ)
  | export (n : ℕ) (goal : Node)
  | delete (n : ℕ)
  deriving DecidableEq

/-- The variable of a node. -/
def varOf (names : List (Node × ℕ)) (t : Node) : Option ℕ := (names.find? fun p => p.1 = t).map (·.2)

/-- The variable of a name; `rename` asserts that there is one. -/
def nameVar (names : List (Node × ℕ)) (t : Node) : Except Err ℕ :=
  match varOf names t with
  | some n => .ok n
  | none => .error .assertion

mutual
/-- `rename(names)` (expr.py 516-517, 543-545, 588-590, 617-621, 1065-1067); the renamed `Predicate` is
positive. -/
def T.rename (names : List (Node × ℕ)) : Node → Except Err (T ℕ)
  | .const v => .ok (.const v)
  | .bconst m v => do return .bconst (some (← nameVar names (.bconst m v))) v
  | .name s => do return .name (← nameVar names (.name s))
  | .pred s b => do return .pred (← nameVar names (.pred s b)) true
  | .call f args =>
    match varOf names (.call f args) with
    | some n => .ok (.name n)
    | none => do return .call f (← T.renameL names args)
/-- The same for all arguments. -/
def T.renameL (names : List (Node × ℕ)) : List Node → Except Err (List (T ℕ))
  | [] => .ok []
  | a :: as => do
    let x ← a.rename names
    let xs ← T.renameL names as
    .ok (x :: xs)
end

/-- The instruction that computes a node (instr.py 356-369).  `walkdown` never yields a `Const`, for which the
code does nothing. -/
def headIns (names : List (Node × ℕ)) (i : ℕ) : Node → Except Err Ins
  | .const _ => .error .notImplemented
  | .call f args => do return .assign i (← (T.call f args).rename names)
  | t => .ok (.param i t)

/-- Is the node required by one of these? -/
def neededBy (g : Graph) (x : Node) (rest : List Node) : Bool := rest.any fun r => x ∈ g.requires r

/-- `instructions(sources, goals)` after the first `i` nodes (instr.py 353-381); `live` maps variables to
nodes. -/
def emit (g : Graph) (goals : List Node) : ℕ → List (Node × ℕ) → List (ℕ × Node) → List Node →
    Except Err (List Ins)
  | _, _, _, [] => .ok []
  | i, names, live, node :: rest => do
    let head ← headIns names i node
    let live' := live ++ [(i, node)]
    let tail ← emit g goals (i + 1) (names ++ [(node, i)]) (live'.filter fun p => neededBy g p.2 rest) rest
    .ok (head :: (if node ∈ goals then [.export i node] else []) ++
      (live'.filter fun p => !neededBy g p.2 rest).map (fun p => .delete p.1) ++ tail)

/-- The instructions for a list of goals (fill.py 44-57).  `srcs` lists the sources in the order of iteration of
the set, `ord` orders the nodes that require a node. -/
def compile (goals : List Node) (srcs : List Node) (ord : List Node → List Node) : Except Err (List Ins) :=
  emit (growAll goals) goals 0 [] [] (walkdown (growAll goals) ord srcs)

/-! ## Execution -/

/-- The variables and their values. -/
abbrev Vars (V : Type) := List (ℕ × V)

/-- `symbols[name]`. -/
def Vars.get {V : Type} (s : Vars V) (n : ℕ) : Except Err V :=
  match s.find? fun p => p.1 = n with
  | some p => .ok p.2
  | none => .error .keyError

/-- `symbols[name] = value`. -/
def Vars.put {V : Type} (s : Vars V) (n : ℕ) (v : V) : Vars V := (n, v) :: s.filter fun p => p.1 ≠ n

/-- `del symbols[name]`. -/
def Vars.del {V : Type} (s : Vars V) (n : ℕ) : Except Err (Vars V) :=
  if s.any (fun p => p.1 = n) then .ok (s.filter fun p => p.1 ≠ n) else .error .keyError

/-- The loop of `_fill` over the instructions (fill.py 123-160): the exported values in order.  `ext` gives the
array of a parameter. -/
def exec {V : Type} (lib : Lib V) (ext : Node → Except Err V) : Vars V → List Ins →
    Except Err (List (Node × V) × Vars V)
  | s, [] => .ok ([], s)
  | s, .param n e :: is => do
    let v ← ext e
    exec lib ext (s.put n v) is
  | s, .assign n e :: is => do
    let v ← calculate lib s.get e
    exec lib ext (s.put n v) is
  | s, .export n t :: is => do
    let v ← s.get n
    let r ← exec lib ext s is
    .ok ((t, v) :: r.1, r.2)
  | s, .delete n :: is => do
    let s' ← s.del n
    exec lib ext s' is

end Verif
