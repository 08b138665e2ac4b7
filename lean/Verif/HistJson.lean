import Verif.AxisDesc

/-!
# Histograms as objects: constructor, pickling and JSON

Model of `Hist.__init__` (what it stores), `__getstate__`, `__setstate__`, `tojson`, `fromjson` and `__eq__` in
`/repo/histbook/hist.py`.  Histograms are values here (what is shared is in `Verif.Heap` and `Verif.Attach`).
Definitions are strings.  The expression parser is a parameter: any function of the definitions and the text.
-/

namespace Verif

/-! ## Contents -/

mutual
/-- The attribute `_content`: `None`, a numpy array (its shape and its numbers in order), or a dict of contents. -/
inductive Cn
  | none
  | arr (shape : List ℕ) (data : List Num)
  | dict (d : CnL)
/-- The entries of a dict. -/
inductive CnL
  | nil
  | cons (k : Key) (x : Cn) (r : CnL)
end

/-- The number of elements of an array. -/
def cells : List ℕ → ℕ
  | [] => 1
  | n :: s => n * cells s

/-- `n` rows of `k` elements. -/
def chunks : ℕ → ℕ → List Num → List (List Num)
  | 0, _, _ => []
  | n + 1, k, d => d.take k :: chunks n k (d.drop k)

/-- `numpy.ndarray.tolist()`. -/
def tolist : List ℕ → List Num → J
  | [], d =>
    match d with
    | v :: _ => .float v
    | [] => .null
  | n :: s, d => .list ((chunks n (cells s) d).map (tolist s))

/-- The array of given arrays, which must have the same shape. -/
def stack : List (List ℕ × List Num) → Except Err (List ℕ × List Num)
  | [] => .ok ([0], [])
  | (s, d) :: r =>
    if r.all fun p => decide (p.1 = s) then .ok ((r.length + 1) :: s, d ++ (r.map (·.2)).flatten)
    else .error .valueError

mutual
/-- `numpy.array(node, dtype=float64)`. -/
def arrOf : J → Except Err (List ℕ × List Num)
  | .float v => .ok ([], [v])
  | .int i => .ok ([], [.fin i])
  | .bool b => .ok ([], [.fin (b2i b)])
  | .null => .ok ([], [.nan])
  | .str _ => .error .valueError
  | .dict _ => .error .typeError
  | .list l =>
    match arrsOf l with
    | .ok rs => stack rs
    | .error e => .error e
/-- Each element. -/
def arrsOf : List J → Except Err (List (List ℕ × List Num))
  | [] => .ok []
  | j :: js =>
    match arrOf j with
    | .error e => .error e
    | .ok a =>
      match arrsOf js with
      | .error e => .error e
      | .ok as => .ok (a :: as)
end

mutual
/-- `recurse` of `tojson` (hist.py 698-703); `None` inside has no `tolist`. -/
def Cn.tojson : Cn → Except Err J
  | .none => .error .attributeError
  | .arr s d => .ok (tolist s d)
  | .dict d =>
    match d.tojson with
    | .ok l => .ok (.dict l)
    | .error e => .error e
/-- The entries. -/
def CnL.tojson : CnL → Except Err (List (Key × J))
  | .nil => .ok []
  | .cons k x r =>
    match x.tojson with
    | .error e => .error e
    | .ok j =>
      match r.tojson with
      | .error e => .error e
      | .ok l => .ok ((k, j) :: l)
end

mutual
/-- `recurse` of `fromjson` (hist.py 712-718). -/
def cnOf : J → Except Err Cn
  | .null => .ok .none
  | .dict d =>
    match cnsOf d with
    | .ok l => .ok (.dict l)
    | .error e => .error e
  | .bool b => (arrOf (.bool b)).map fun p => .arr p.1 p.2
  | .int i => (arrOf (.int i)).map fun p => .arr p.1 p.2
  | .float v => (arrOf (.float v)).map fun p => .arr p.1 p.2
  | .str s => (arrOf (.str s)).map fun p => .arr p.1 p.2
  | .list l => (arrOf (.list l)).map fun p => .arr p.1 p.2
/-- The entries. -/
def cnsOf : List (Key × J) → Except Err CnL
  | [] => .ok .nil
  | p :: ps =>
    match cnPair p with
    | .error e => .error e
    | .ok x =>
      match cnsOf ps with
      | .error e => .error e
      | .ok l => .ok (.cons x.1 x.2 l)
/-- One entry. -/
def cnPair : Key × J → Except Err (Key × Cn)
  | (k, j) =>
    match cnOf j with
    | .ok x => .ok (k, x)
    | .error e => .error e
end

/-! ## The constructor -/

/-- The expression parser and what is done with its results (hist.py 206-250). -/
structure Parser (β : Type) where
  /-- `Expr.parse(text, defs=defs)` -/
  parse : List (String × String) → String → Except Err β
  /-- whether a filter is a logical expression (212) -/
  logical : β → Bool
  /-- `Call("where", filter, Const(1), Const(0))` (222) -/
  whereOne : β → β
  /-- `Const(weight)` (232) -/
  const : J → β
  /-- `"where(({0}), 1, 0) * ({1})".format(filter, weight)` (245) -/
  combine : String → String → String
  /-- `repr(weight)` of a number (244) -/
  repr : J → String

/-- The attributes of a histogram. -/
structure HistX (β : Type) where
  group : List (AxisX × Option β)
  fixed : List (AxisX × Option β)
  profile : List (AxisX × Option β)
  weight : J
  filter : Option String
  weightP : Option β
  filterP : Option β
  defs : List (String × String)
  content : Cn
  attachment : List (String × J)

variable {β : Type}

/-- `isinstance(_, GroupAxis)`. -/
def AxisX.isGroup : AxisX → Bool
  | .groupby _ | .groupbin _ _ _ _ _ => true
  | _ => false

/-- `isinstance(_, FixedAxis)`. -/
def AxisX.isFixed : AxisX → Bool
  | .bin _ _ _ _ _ _ _ _ | .intbin _ _ _ _ _ | .split _ _ _ _ _ _ | .cut _ | .null => true
  | _ => false

/-- `isinstance(_, ProfileAxis)`. -/
def AxisX.isProfile : AxisX → Bool
  | .profile _ => true
  | _ => false

/-- The expression of an axis. -/
def AxisX.exprOf : AxisX → String
  | .groupby e | .groupbin e _ _ _ _ | .bin e _ _ _ _ _ _ _ | .intbin e _ _ _ _ | .split e _ _ _ _ _ | .cut e
  | .profile e => e
  | .null => "???"

/-- One axis given to the constructor (hist.py 156-164): an axis that was already parsed, for another histogram
perhaps, is taken as it is. -/
def mkAxis (P : Parser β) (defs : List (String × String)) (x : AxisX × Option β) : Except Err (AxisX × Option β) :=
  match x with
  | (.null, p) => .ok (.null, p)
  | (a, some e) => .ok (a, some e)
  | (a, none) =>
    match P.parse defs a.exprOf with
    | .error e => .error e
    | .ok e =>
      match a.copy with
      | .error e => .error e
      | .ok b => .ok (b, some e)

/-- `isinstance(weight, (numbers.Real, numpy.integer, numpy.floating))`. -/
def J.isNumber : J → Bool
  | .int _ | .float _ | .bool _ => true
  | _ => false

/-- The filter (hist.py 203-213). -/
def mkFilter (P : Parser β) (defs : List (String × String)) : Option String → Except Err (Option β)
  | none => .ok none
  | some f =>
    match P.parse defs f with
    | .error e => .error e
    | .ok e => if P.logical e then .ok (some e) else .error .typeError

/-- The weight as text (hist.py 243-245). -/
def weightText (P : Parser β) (w : J) : Except Err String :=
  if w.isNumber then .ok (P.repr w) else w.strOf

/-- The weight (hist.py 215-249). -/
def mkWeight (P : Parser β) (defs : List (String × String)) (w : J) (filter : Option String) (fp : Option β) :
    Except Err (Option β) :=
  match w, filter, fp with
  | .null, none, _ => .ok none
  | .null, some _, some fp => .ok (some (P.whereOne fp))
  | .null, some _, none => .error .assertion
  | w, none, _ => if w.isNumber then .ok (some (P.const w)) else (do .ok (some (← P.parse defs (← w.strOf))))
  | w, some f, _ => (do .ok (some (← P.parse defs (P.combine f (← weightText P w)))))

/-- `Hist(*axis, weight=..., filter=..., defs=..., attachment=...)` (hist.py 100-256).  No definitions and an empty
dict of definitions are the same. -/
def mkHist (P : Parser β) (axes : List (AxisX × Option β)) (w : J) (filter : Option String)
    (defs : List (String × String)) (attachment : List (String × J)) : Except Err (HistX β) :=
  match mapE (mkAxis P defs) axes with
  | .error e => .error e
  | .ok new =>
    match mkFilter P defs filter with
    | .error e => .error e
    | .ok fp =>
      match mkWeight P defs w filter fp with
      | .error e => .error e
      | .ok wp => .ok
        { group := new.filter fun x => x.1.isGroup
          fixed := new.filter fun x => x.1.isFixed
          profile := new.filter fun x => x.1.isProfile
          weight := w, filter := filter, weightP := wp, filterP := fp, defs := defs, content := .none
          attachment := attachment }

/-- All axes in order. -/
def HistX.axes (h : HistX β) : List (AxisX × Option β) := h.group ++ h.fixed ++ h.profile

/-! ## Pickling -/

/-- The pickled state. -/
structure Pickled where
  axes : List (AxCls × String × List J)
  weight : J
  filter : Option String
  defs : List (String × String)
  content : Cn
  attachment : List (String × J)

/-- `__getstate__` (hist.py 724-726). -/
def HistX.getstate (h : HistX β) : Except Err Pickled :=
  match mapE (fun x => AxisX.pack x.1) h.axes with
  | .error e => .error e
  | .ok p => .ok ⟨p, h.weight, h.filter, h.defs, h.content, h.attachment⟩

/-- `__setstate__` (hist.py 728-731). -/
def setstate (P : Parser β) (s : Pickled) : Except Err (HistX β) :=
  match mapE unpack s.axes with
  | .error e => .error e
  | .ok as =>
    match mkHist P (as.map fun a => (a, none)) s.weight s.filter s.defs s.attachment with
    | .error e => .error e
    | .ok h => .ok { h with content := s.content }

/-! ## JSON -/

/-- The content, unless it is `None` (hist.py 697-704). -/
def contentEntry : Cn → Except Err (List (String × J))
  | .none => .ok []
  | c =>
    match c.tojson with
    | .ok j => .ok [("content", j)]
    | .error e => .error e

/-- An entry that is there under a condition. -/
def entryIf (b : Bool) (k : String) (j : J) : List (String × J) := if b then [(k, j)] else []

/-- The weight, unless it is `None` (hist.py 692-693). -/
def weightEntry : J → List (String × J)
  | .null => []
  | w => [("weight", w)]

/-- The filter, unless it is `None` (hist.py 694-695). -/
def filterEntry : Option String → List (String × J)
  | none => []
  | some f => [("filter", .str f)]

/-- `tojson` (hist.py 690-707): the dict as a list of entries. -/
def HistX.entries (h : HistX β) : Except Err (List (String × J)) :=
  match mapE (fun x => AxisX.tojson x.1) h.axes with
  | .error e => .error e
  | .ok as =>
    match contentEntry h.content with
    | .error e => .error e
    | .ok c => .ok ([("type", .str "Hist"), ("axis", .list as)] ++
        weightEntry h.weight ++ filterEntry h.filter ++
        entryIf (!h.defs.isEmpty) "defs" (.obj (h.defs.map fun p => (p.1, .str p.2))) ++ c ++
        entryIf (!h.attachment.isEmpty) "attachment" (.obj h.attachment))

/-- `tojson` (hist.py 690-707). -/
def HistX.tojson (h : HistX β) : Except Err J := h.entries.map .obj

/-- `obj.get(key, None)`. -/
def J.getN (j : J) (key : String) : J :=
  match j.get key with
  | .ok v => v
  | .error _ => .null

/-- A list. -/
def J.listOf : J → Except Err (List J)
  | .list l => .ok l
  | _ => .error .typeError

/-- A filter. -/
def J.optStr : J → Except Err (Option String)
  | .null => .ok none
  | .str s => .ok (some s)
  | _ => .error .notImplemented

/-- A dict with string keys, or `None`. -/
def J.objOf : J → Except Err (List (String × J))
  | .null => .ok []
  | .dict d => mapE (fun p : Key × J => match p with
    | (.str k, j) => .ok (k, j)
    | _ => .error .notImplemented) d
  | _ => .error .notImplemented

/-- The definitions. -/
def J.defsOf (j : J) : Except Err (List (String × String)) := do
  mapE (fun p : String × J => match p with
    | (k, .str s) => .ok (k, s)
    | _ => .error .notImplemented) (← j.objOf)

/-- `assert obj["type"] == "Hist"`. -/
def J.checkType (j : J) : Except Err Unit :=
  match j.get "type" with
  | .error e => .error e
  | .ok (.str t) => if t = "Hist" then .ok () else .error .assertion
  | .ok _ => .error .assertion

/-- `fromjson` (hist.py 709-722). -/
def histFromjson (P : Parser β) (j : J) : Except Err (HistX β) := do
  j.checkType
  let as ← mapE axisFromjson (← (← j.get "axis").listOf)
  let filter ← (j.getN "filter").optStr
  let defs ← (j.getN "defs").defsOf
  let attachment ← (j.getN "attachment").objOf
  let h ← mkHist P (as.map fun a => (a, none)) (j.getN "weight") filter defs attachment
  let c ← cnOf (j.getN "content")
  .ok { h with content := c }

/-! ## Equality -/

mutual
/-- `==` of JSON-like objects: booleans and integers are numbers; dicts have the same keys with equal values. -/
def J.eq : J → J → Bool
  | .null, .null => true
  | .bool a, .bool b => decide (a = b)
  | .bool a, .int b => decide (b2i a = b)
  | .int a, .bool b => decide (a = b2i b)
  | .int a, .int b => decide (a = b)
  | .float a, .float b => Num.eq a b
  | .float a, .int b => Num.eq a (.fin b)
  | .int a, .float b => Num.eq (.fin a) b
  | .float a, .bool b => Num.eq a (.fin (b2i b))
  | .bool a, .float b => Num.eq (.fin (b2i a)) b
  | .str a, .str b => decide (a = b)
  | .list a, .list b => J.eqL a b
  | .dict a, .dict b => decide (a.length = b.length) && J.eqD a b
  | _, _ => false
/-- Equality of lists. -/
def J.eqL : List J → List J → Bool
  | [], [] => true
  | x :: a, y :: b => J.eq x y && J.eqL a b
  | _, _ => false
/-- Each entry of the first dict is in the second. -/
def J.eqD : List (Key × J) → List (Key × J) → Bool
  | [], _ => true
  | p :: a, b => J.eqP p b && J.eqD a b
/-- An entry is in a dict. -/
def J.eqP : Key × J → List (Key × J) → Bool
  | (k, x), b =>
    match b.find? fun q => decide (q.1 = k) with
    | some q => J.eq x q.2
    | none => false
end

/-- `content[k]`. -/
def CnL.find (k : Key) : CnL → Option Cn
  | .nil => Option.none
  | .cons k' x r => if k' = k then some x else r.find k

/-- The keys. -/
def CnL.keys : CnL → List Key
  | .nil => []
  | .cons k _ r => k :: r.keys

mutual
/-- `recurse` of `__eq__` (hist.py 734-742); `numpy.array_equal` compares shapes and numbers. -/
def Cn.eq : Cn → Cn → Bool
  | .none, .none => true
  | .dict a, .dict b => a.keys.all (· ∈ b.keys) && b.keys.all (· ∈ a.keys) && CnL.eq a b
  | .arr s d, .arr s' d' => decide (s = s') && numsEq d d'
  | _, _ => false
/-- Each entry of the first is in the second. -/
def CnL.eq : CnL → CnL → Bool
  | .nil, _ => true
  | .cons k x r, b => (match b.find k with | some y => x.eq y | Option.none => false) && r.eq b
end

/-- Equality of tuples of axes. -/
def axesEq : List AxisX → List AxisX → Bool
  | [], [] => true
  | a :: as, b :: bs => a.eq b && axesEq as bs
  | _, _ => false

/-- Equality of dicts of definitions. -/
def defsEq (a b : List (String × String)) : Bool :=
  decide (a.length = b.length) && a.all fun p => decide (p ∈ b)

/-- `__eq__` (hist.py 733-744).  Axes are compared by their labels and parameters, not by what the labels were parsed
to. -/
def HistX.eq [DecidableEq β] (g h : HistX β) : Bool :=
  axesEq (g.group.map (·.1)) (h.group.map (·.1)) && axesEq (g.fixed.map (·.1)) (h.fixed.map (·.1)) &&
    axesEq (g.profile.map (·.1)) (h.profile.map (·.1)) && decide (g.weightP = h.weightP) &&
    decide (g.filterP = h.filterP) && defsEq g.defs h.defs && g.content.eq h.content &&
    (J.obj g.attachment).eq (.obj h.attachment)

end Verif
