import Verif.Book

/-!
# Specification of books

A book is a tree.  `BT.at` follows a path one name at a time; `BT.WF` holds of books in which the names on each
level are distinct and contain no slash.
-/

namespace Verif

variable {α : Type}

/-- The entry that is reached by following the names. -/
def BT.at : List Str → BT α → Option (BT α)
  | [], x => some x
  | _ :: _, .hist _ => none
  | n :: p, .book _ _ c => (c.find n).bind (BT.at p)

mutual
/-- Names are distinct and without slash on all levels. -/
def BT.WF : BT α → Prop
  | .hist _ => True
  | .book _ _ c => c.keys.Nodup ∧ c.WF
/-- The same for the entries. -/
def BL.WF : BL α → Prop
  | .nil => True
  | .cons n x r => '/' ∉ n ∧ x.WF ∧ r.WF
end

/-- It is a book. -/
def BT.isBook : BT α → Prop
  | .hist _ => False
  | .book _ _ _ => True

/-- The class of a book. -/
def BT.cls? : BT α → Option BClass
  | .hist _ => none
  | .book c _ _ => some c

/-- None of the books on the way along a path is a `SystematicsBook`. -/
def Unchecked (b : BT α) (p : List Str) : Prop :=
  ∀ q, q <+: p → q ≠ p → ∀ x, b.at q = some x → x.cls? ≠ some .systematics

/-- The state after an operation, whether or not it raised an exception. -/
def outcome {σ : Type} : Except (Err × σ) σ → σ
  | .ok s => s
  | .error (_, s) => s

/-- Books that a program can have: made by constructors, assignments and deletions, also of books inside. -/
inductive Built (o : HistOps α) : BT α → Prop
  | hist (h : α) : Built o (.hist h)
  | empty (c : BClass) (f : Fields α) : Built o (.book c f .nil)
  | set {b v : BT α} (name : Str) : Built o b → Built o v → Built o (outcome (b.setitem o name v))
  | del {b : BT α} (name : Str) : Built o b → Built o (outcome (b.delitem o name))
  | sub {b x : BT α} (p : List Str) : Built o b → b.at p = some x → Built o x
  | inner {c : BClass} {f : Fields α} {l : BL α} (n : Str) {x y : BT α} : Built o (.book c f l) →
      l.find n = some x → Built o y → Built o (.book c f (l.put n y))

end Verif
