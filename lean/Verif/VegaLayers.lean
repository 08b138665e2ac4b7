import Verif.Vega

/-!
# Layers and combinations of plots

The second half of `/repo/histbook/vega.py`: `_vegalite` of plots of one and two variables, and `overlay`, `beside`, `below` and `grid`.
-/

namespace Verif

/-! ## domains -/

/-- `str(x)` of an element of `domains` (vega.py 656, 661). -/
def DKey.text (F : Fmt) : DKey → String
  | .key k => F.key k
  | .lab (.bool b) => if b then "True" else "False"
  | .lab l => l.text F

/-- axis.py 83-90, 145-149 `Interval.__lt__`, as `not (other < self)`. -/
def BinLabel.before : BinLabel → BinLabel → Bool
  | _, .nan => true
  | .nan, _ => false
  | .iv lo _ _ _, .iv lo' _ _ _ => Num.le lo lo'
  | .int i, .int j => decide (i ≤ j)
  | .bool b, .bool c => !b || c
  | _, _ => false

/-- The kinds of labels that can be compared with each other: intervals, integers, and truth values. -/
def BinLabel.sort : BinLabel → ℕ
  | .iv _ _ _ _ => 0
  | .nan => 0
  | .int _ => 1
  | .bool _ => 2

/-- The key of a `groupby` axis, or else nothing. -/
def DKey.key? : DKey → Option Key
  | .key k => some k
  | _ => none

def DKey.lab? : DKey → Option BinLabel
  | .lab l => some l
  | _ => none

/-- `sorted(domains[axis])`, a set: what cannot be compared is a `TypeError` (classes are not ordered, axis.py 90). -/
def sortDomain (ks : List DKey) : Except Err (List DKey) :=
  let ks := ks.dedup
  if ks.all (fun k => k.key?.isSome) then (sortKeys (ks.filterMap DKey.key?)).map (List.map .key)
  else
    let ls := ks.filterMap DKey.lab?
    if ls.length = ks.length ∧ (ls.all fun l => decide (l.sort = (ls.headD .nan).sort)) then
      .ok ((ls.insertionSort fun a b => a.before b = true).map .lab)
    else .error .typeError

/-! ## layers of a plot of one variable -/

/-- vega.py 644-650 `makeorder`: nested expressions `if(datum.var === value, i, ...)`. -/
inductive OExpr
  | num (i : ℕ)
  | ite (value : String) (i : ℕ) (els : OExpr)
  deriving DecidableEq

def makeorder : ℕ → List String → Except Err OExpr
  | _, [] => .error .assertion
  | i, [v] => .ok (.ite v i (.num (i + 1)))
  | i, v :: w :: rest => (makeorder (i + 1) (w :: rest)).map (.ite v i)

/-- The value of such an expression for a record where the field is a text. -/
def OExpr.eval (s : String) : OExpr → ℕ
  | .num i => i
  | .ite v i e => if s = v then i else e.eval s

/-- vega.py 652-678: the fields of the records that are drawn, the order of colours, and the order of what is stacked. -/
structure Encoding where
  x : PName
  xtype : XType
  y : PName
  color : Option (PName × List String) := none
  order : Option (PName × OExpr) := none
  column : Option PName := none
  row : Option PName := none
  deriving DecidableEq

/-- vega.py 703-715: error bars at `x` from `y - err` to `y + err`. -/
structure ErrorBars where
  x : PName
  xtype : XType
  y : PName
  err : PName
  deriving DecidableEq

/-- vega.py 820-858: a heatmap; `xbin` and `ybin` are the extents. -/
structure Encoding2 where
  x : PName
  y : PName
  color : PName
  xbin : Option (ℚ × ℚ)
  ybin : Option (ℚ × ℚ)
  column : Option PName := none
  row : Option PName := none
  deriving DecidableEq

/-- What a layer draws. -/
inductive Drawn
  | one (e : Encoding)
  | errors (e : ErrorBars)
  | two (e : Encoding2)
  deriving DecidableEq

/-- vega.py 654-678: one channel of the chain. -/
def encodeChannel (F : Fmt) (axes : List ℕ) (domains : List (Option (List DKey))) (var : String) (e : Encoding) (c : Channel) : Except Err Encoding :=
  let f : PName := .col var (placeOf axes c.axis)
  match c.kind with
  | .overlay =>
    match domains.getD (placeOf axes c.axis) none with
    | none => .error .keyError
    | some ks => (sortDomain ks).map fun ks => { e with color := some (f, ks.map (DKey.text F)) }
  | .stack none =>
    match domains.getD (placeOf axes c.axis) none with
    | none => .error .keyError
    | some ks =>
      match sortDomain ks with
      | .error er => .error er
      | .ok ks => (makeorder 0 (ks.map (DKey.text F))).map fun o =>
          { e with color := some (f, (ks.map (DKey.text F)).reverse), order := some (f, o) }
  | .stack (some order) => (makeorder 0 order).map fun o => { e with color := some (f, order.reverse), order := some (f, o) }
  | .beside => .ok { e with column := some f }
  | .below => .ok { e with row := some f }

/-- A loop that updates something. -/
def foldE {α β : Type} (f : β → α → Except Err β) : β → List α → Except Err β
  | b, [] => .ok b
  | b, x :: xs =>
    match f b x with
    | .error e => .error e
    | .ok b => foldE f b xs

/-- The number of axes of a plot: `len(axis)`. -/
def HistDef.plotAxes (H : HistDef) (axes : List ℕ) : ℕ := placeOf axes (H.groups.length + H.fixed.length)

/-- vega.py 603-717 `Plotable1d._vegalite`. -/
def HistDef.layers1d (H : HistDef) (F : Fmt) (P : Plot1d) (domains : List (Option (List DKey))) (var : String) : Except Err (List Drawn) :=
  let n := H.plotAxes P.axes
  let j := placeOf P.axes P.axis
  (foldE (encodeChannel F P.axes domains var) { x := .col var j, xtype := H.xtype P, y := .col var n } P.chain).map fun e =>
    if P.error then
      [.one e, .errors ⟨if P.mark.baseline then .centre var j else .col var j, .quantitative, .col var n, .col var (n + 1)⟩]
    else [.one e]

/-! ## the layer of a plot of two variables -/

/-- vega.py 820-842: the extents.  `yaxis.may` is an `AttributeError`. -/
def extent2d (vertical : Bool) : Option (GroupAxis ⊕ FixedAxis) → Except Err (Option (ℚ × ℚ))
  | some (.inr (.bin a)) => .ok (some (a.low, a.high))
  | some (.inr (.intbin a)) => if vertical then .error .attributeError else .ok (some ((a.min : ℚ) - 1 / 2, (a.max : ℚ) + 1 / 2))
  | some (.inr (.split _)) => .error .notImplemented
  | _ => .ok none

/-- vega.py 858-869: one channel of the chain. -/
def encodeChannel2 (axes : List ℕ) (var : String) (e : Encoding2) (c : Channel) : Except Err Encoding2 :=
  match c.kind with
  | .beside => .ok { e with column := some (.col var (placeOf axes c.axis)) }
  | .below => .ok { e with row := some (.col var (placeOf axes c.axis)) }
  | _ => .error .assertion

/-- vega.py 819-885 `Plotable2d._vegalite`. -/
def HistDef.layers2d (H : HistDef) (P : Plot2d) (var : String) : Except Err (List Drawn) :=
  match extent2d false (H.axisAt P.xaxis), extent2d true (H.axisAt P.yaxis) with
  | .error e, _ => .error e
  | _, .error e => .error e
  | .ok xb, .ok yb =>
    (foldE (encodeChannel2 P.axes var) ⟨.col var (placeOf P.axes P.xaxis), .col var (placeOf P.axes P.yaxis), .col var (H.plotAxes P.axes), xb, yb, none, none⟩
      P.chain).map fun e => [.two e]

/-! ## combinations -/

/-- A plot of a histogram. -/
inductive Leaf
  | one (H : HistDef) (st : H.State) (P : Plot1d)
  | two (H : HistDef) (st : H.State) (P : Plot2d)

def Leaf.data (F : Fmt) (pre : Datum) (var : String) : Leaf → Except Err PlotData
  | .one H st P => H.data1d F P pre var st
  | .two H st P => H.data2d F P pre var st

def Leaf.layers (F : Fmt) (domains : List (Option (List DKey))) (var : String) : Leaf → Except Err (List Drawn)
  | .one H _ P => H.layers1d F P domains var
  | .two H _ P => H.layers2d P var

/-- vega.py 984-1140: the four ways to combine plots. -/
inductive CKind
  | overlay
  | beside
  | below
  | grid (numcol : ℕ)
  deriving DecidableEq

mutual
/-- A plot, or a combination. -/
inductive Comb
  | leaf (l : Leaf)
  | node (k : CKind) (cs : CombL)
/-- The plots of a combination. -/
inductive CombL
  | nil
  | cons (c : Comb) (cs : CombL)
end

/-- vega.py 988, 1021, 1062, 1103: what can be combined.  The checks for channels (1022, 1063, 1104) look for channels among plots and never find
one. -/
def CKind.accepts : CKind → Comb → Bool
  | _, .leaf (.one _ _ _) => true
  | .overlay, _ => false
  | _, .leaf (.two _ _ _) => true
  | _, .node .overlay _ => true
  | .beside, .node .below _ => true
  | .below, .node .beside _ => true
  | _, _ => false

def CombL.toList : CombL → List Comb
  | .nil => []
  | .cons c cs => c :: cs.toList

/-- vega.py 913-927 `Combination.__init__`. -/
def combine (k : CKind) (cs : CombL) : Except Err Comb :=
  if cs.toList.all k.accepts then .ok (.node k cs) else .error .typeError

/-- vega.py 935-941 `_varname`: the loop, with a bound that is large enough. -/
def varLoop : ℕ → ℕ → List Char
  | 0, _ => []
  | fuel + 1, i => if 0 < i then "abcdefghijklmnopqrstuvwxyz".toList.getD (i % 26) 'a' :: varLoop fuel (i / 26) else []

def varname (i : ℕ) : String := String.ofList (varLoop (i + 1) (i + 1)).reverse

/-- vega.py 953-958: the records and keys of one plot. -/
def Leaf.collect (F : Fmt) (i : ℕ) (l : Leaf) : Except Err PlotData := l.data F [(.id, .str (varname i))] (varname i)

mutual
/-- vega.py 943-962 `_collectdata`: everything that `_data` gave, in order, and the number of the next plot. -/
def Comb.collect (F : Fmt) : Comb → ℕ → Except Err (List PlotData × ℕ)
  | .leaf l, i => (l.collect F i).map fun d => ([d], i + 1)
  | .node _ cs, i => cs.collect F i
def CombL.collect (F : Fmt) : CombL → ℕ → Except Err (List PlotData × ℕ)
  | .nil, i => .ok ([], i)
  | .cons c cs, i =>
    match c.collect F i with
    | .error e => .error e
    | .ok r => (cs.collect F r.2).map fun s => (r.1 ++ s.1, s.2)
end

/-- A layer with the name of the records it is limited to (`none`: not limited). -/
structure LayerSpec where
  drawn : Drawn
  only : Option String
  deriving DecidableEq

/-- The parts of a Vega-Lite specification. -/
inductive Panel
  | single (l : LayerSpec)
  | layer (ls : List LayerSpec)
  | hconcat (ps : List Panel)
  | vconcat (ps : List Panel)

/-- vega.py 991-1004 and the like: the layers of plot number `i`. -/
def Leaf.fill (F : Fmt) (doms : List (List (Option (List DKey)))) (i : ℕ) (l : Leaf) : Except Err (List Drawn) :=
  l.layers F (doms.getD i []) (varname i)

/-- vega.py 990-1005 `overlay._fill`: all layers are limited to the plot. -/
def fillOverlay (F : Fmt) (doms : List (List (Option (List DKey)))) : CombL → ℕ → Except Err (List LayerSpec × ℕ)
  | .nil, i => .ok ([], i)
  | .cons (.leaf l) cs, i =>
    match l.fill F doms i with
    | .error e => .error e
    | .ok ds => (fillOverlay F doms cs (i + 1)).map fun r => (ds.map (fun d => ⟨d, some (varname i)⟩) ++ r.1, r.2)
  | .cons _ _, _ => .error .attributeError

/-- vega.py 1036-1044, 1077-1085, 1118-1128: a plot in one of the other combinations; several layers are not limited. -/
def leafPanel (i : ℕ) : List Drawn → Panel
  | [d] => .single ⟨d, some (varname i)⟩
  | ds => .layer (ds.map fun d => ⟨d, none⟩)

mutual
/-- vega.py 1025-1046, 1066-1087, 1108-1130 `_fill` of `beside`, `below` and `grid`: the panels, one after the other. -/
def fillPanels (F : Fmt) (doms : List (List (Option (List DKey)))) : CombL → ℕ → Except Err (List Panel × ℕ)
  | .nil, i => .ok ([], i)
  | .cons c cs, i =>
    match fillPanel F doms c i with
    | .error e => .error e
    | .ok r => (fillPanels F doms cs r.2).map fun s => (r.1 :: s.1, s.2)
def fillPanel (F : Fmt) (doms : List (List (Option (List DKey)))) : Comb → ℕ → Except Err (Panel × ℕ)
  | .leaf l, i => (l.fill F doms i).map fun ds => (leafPanel i ds, i + 1)
  | .node .overlay cs, i => (fillOverlay F doms cs i).map fun r => (.layer r.1, r.2)
  | .node .beside cs, i => (fillPanels F doms cs i).map fun r => (.hconcat r.1, r.2)
  | .node .below cs, i => (fillPanels F doms cs i).map fun r => (.vconcat r.1, r.2)
  | .node (.grid _) _, _ => .error .attributeError
end

/-- vega.py 1110-1111 in the loop: a new row where the last one is full. -/
def gridRows (numcol : ℕ) : List (List Panel) → List Panel → List (List Panel)
  | rows, [] => rows
  | rows, p :: ps =>
    if numcol ≤ (rows.getLastD []).length then gridRows numcol (rows ++ [[p]]) ps
    else gridRows numcol (rows.dropLast ++ [rows.getLastD [] ++ [p]]) ps

/-- vega.py 1007-1015, 1048-1056, 1089-1097, 1132-1140: what is drawn. -/
def fillTop (F : Fmt) (doms : List (List (Option (List DKey)))) : CKind → CombL → Except Err Panel
  | .overlay, cs => (fillOverlay F doms cs 0).map fun r => .layer r.1
  | .beside, cs => (fillPanels F doms cs 0).map fun r => .hconcat r.1
  | .below, cs => (fillPanels F doms cs 0).map fun r => .vconcat r.1
  | .grid n, cs => (fillPanels F doms cs 0).map fun r => .vconcat ((gridRows n [[]] r.1).map .hconcat)

/-- A Vega-Lite specification: the records and what is drawn. -/
structure VegaLite where
  data : List Datum
  panel : Panel

/-- `vegalite` of the plots (719-735, 887-897) and the combinations. -/
def Comb.vegalite (F : Fmt) : Comb → Except Err VegaLite
  | .leaf l =>
    match l.data F [] "a" with
    | .error e => .error e
    | .ok d => (l.layers F d.domains "a").map fun ds => ⟨d.data, match ds with
        | [x] => .single ⟨x, none⟩
        | ds => .layer (ds.map fun x => ⟨x, none⟩)⟩
  | .node k cs =>
    match cs.collect F 0 with
    | .error e => .error e
    | .ok r => (fillTop F (r.1.map PlotData.domains) k cs).map fun p => ⟨r.1.flatMap PlotData.data, p⟩

end Verif
