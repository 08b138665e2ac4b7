import Verif.Tree

/-!
# Calculation on arrays in memory

The library functions are called with arrays.  Most of them are NumPy functions of `nin` arrays that take one
more positional argument, the array to write the result into (`numpy.log(x, out)`); `calculate` passes on
whatever the user wrote (calc/__init__.py 327-357).
-/

namespace Verif

/-- An argument of a library function: a number or an array at some address. -/
inductive MVal
  | scalar (v : Option ℚ)
  | arr (a : ℕ)
  deriving DecidableEq

/-- The arrays in memory; the address is the position. -/
abbrev Mem := List (List (Option ℚ))

/-- A library function: how many inputs it has, whether it takes an output array, and what it does with the
numbers of one row (calc/__init__.py 37-146). -/
structure UFunc where
  nin : ℕ
  out : Bool
  f : List (Option ℚ) → Option ℚ

/-- The number in row `i`. -/
def MVal.at (h : Mem) (i : ℕ) : MVal → Option ℚ
  | .scalar v => v
  | .arr a => ((h.getD a []).getD i none)

/-- Is it an array? -/
def MVal.isArr : MVal → Bool
  | .scalar _ => false
  | .arr _ => true

/-- The result of a function in all `n` rows. -/
def UFunc.rows (u : UFunc) (n : ℕ) (args : List MVal) (h : Mem) : List (Option ℚ) :=
  (List.range n).map fun i => u.f ((args.take u.nin).map (MVal.at h i))

/-- Write into the output array. -/
def writeOut (rows : List (Option ℚ)) (h : Mem) : Option MVal → Except Err (MVal × Mem)
  | some (.arr a) => .ok (.arr a, h.set a rows)
  | _ => .error .typeError

/-- A call of a library function: a new array, or a number if all arguments are numbers, or with one more
argument the array to write into; anything else is a `TypeError`. -/
def UFunc.call (u : UFunc) (n : ℕ) (args : List MVal) (h : Mem) : Except Err (MVal × Mem) :=
  if args.length = u.nin then
    if args.any MVal.isArr then .ok (.arr h.length, h ++ [u.rows n args h])
    else .ok (.scalar (u.f (args.map (MVal.at h 0))), h)
  else if args.length = u.nin + 1 ∧ u.out = true then writeOut (u.rows n args h) h args.getLast?
  else .error .typeError

/-- What a constant is as an argument; sets and tuples are left out. -/
def constM : CVal → Except Err MVal
  | .num q => .ok (.scalar (some q))
  | _ => .error .typeError

mutual
/-- `calculate(expr, symbols)` (calc/__init__.py 327-357) with the arrays in memory. -/
def calcM (lib : String → Option UFunc) (n : ℕ) (symbols : String → Except Err MVal) :
    T String → Mem → Except Err (MVal × Mem)
  | .bconst (some s) _, h => do return (← symbols s, h)
  | .bconst none _, _ => .error .keyError
  | .name s, h => do return (← symbols s, h)
  | .pred s _, h => do return (← symbols s, h)
  | .const v, h => do return (← constM v, h)
  | .call f args, h =>
    match lib f with
    | none => .error .assertion
    | some u => do
      let r ← calcML lib n symbols args h
      u.call n r.1 r.2
/-- The arguments one after the other. -/
def calcML (lib : String → Option UFunc) (n : ℕ) (symbols : String → Except Err MVal) :
    List (T String) → Mem → Except Err (List MVal × Mem)
  | [], h => .ok ([], h)
  | a :: as, h => do
    let r ← calcM lib n symbols a h
    let rs ← calcML lib n symbols as r.2
    .ok (r.1 :: rs.1, rs.2)
end

/-! ## Specification -/

mutual
/-- No function that can be given an array to write into is called with one argument more than it has inputs. -/
def T.arity (lib : String → Option UFunc) : T String → Prop
  | .call f args => (∀ u, lib f = some u → ¬ (args.length = u.nin + 1 ∧ u.out = true)) ∧ T.arityL lib args
  | _ => True
/-- The same for all elements of a list. -/
def T.arityL (lib : String → Option UFunc) : List (T String) → Prop
  | [] => True
  | a :: as => T.arity lib a ∧ T.arityL lib as
end

end Verif
