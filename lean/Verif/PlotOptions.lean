import Verif.Attach
import Verif.VegaLayers

/-!
# Options of plots

Model of how the options of plots (`width`, `height`, `title`, `config`, `xscale`, `yscale`, `colorscale`, `shapescale`) get into the Vega-Lite
specification (`/repo/histbook/vega.py`).  What the layers draw is modelled in `VegaLayers.lean` and left out here: of a plot only the number of its
layers counts (one, or two with error bars; 700-717), and of a specification only its objects and their options.
-/

namespace Verif

/-- vega.py 282, 433 and the like: the options of a plot that belong to the plot as a whole. -/
structure PlotOpts where
  width : Option J := none
  height : Option J := none
  title : Option J := none
  config : Option Dct := none

/-- The value of an option in a specification: JSON, or the settings. -/
inductive OVal
  | json (j : J)
  | config (c : Dct)

/-- The options that an object of a specification has, by name. -/
abbrev Attrs := List (String × OVal)

/-- `if value is not None: out[name] = value`. -/
def putOpt (name : String) (v : Option OVal) (out : Attrs) : Attrs :=
  match v with
  | none => out
  | some v => out ++ [(name, v)]

/-- vega.py 737-746, 899-908 `_options`. -/
def PlotOpts.put (o : PlotOpts) (config : Bool) (out : Attrs) : Attrs :=
  let out := putOpt "width" (o.width.map .json) out
  let out := putOpt "height" (o.height.map .json) out
  let out := putOpt "title" (o.title.map .json) out
  if config then putOpt "config" (o.config.map .config) out else out

mutual
/-- A plot with `n + 1` layers, or a combination with its own `config`. -/
inductive OComb
  | leaf (n : ℕ) (o : PlotOpts)
  | node (k : CKind) (config : Option Dct) (cs : OCombL)
/-- The plots of a combination. -/
inductive OCombL
  | nil
  | cons (c : OComb) (cs : OCombL)
end

mutual
/-- The objects of a specification with their options: one with a mark, one with layers, and ones with parts side by side or one below the other. -/
inductive SpecObj
  | unit (attrs : Attrs)
  | layer (attrs : Attrs) (us : List Attrs)
  | concat (horizontal : Bool) (attrs : Attrs) (ps : SpecObjL)
inductive SpecObjL
  | nil
  | cons (p : SpecObj) (ps : SpecObjL)
end

def SpecObjL.toList : SpecObjL → List SpecObj
  | .nil => []
  | .cons p ps => p :: ps.toList

def SpecObjL.ofList : List SpecObj → SpecObjL
  | [] => .nil
  | p :: ps => .cons p (.ofList ps)

/-- `overlay(a, b, name=value, ...)`: the names that are not `config` are refused (vega.py 925-927); the settings are taken out first. -/
def ocombine (k : CKind) (cs : OCombL) (opts : List (String × Dct)) : Except Err OComb :=
  if 0 < (opts.filter fun p => p.1 ≠ "config").length then .error .typeError
  else .ok (.node k ((opts.find? fun p => p.1 = "config").map (·.2)) cs)

/-- vega.py 990-1005 `overlay._fill`: every layer of every plot gets the options of the plot. -/
def oFillOverlay : OCombL → Except Err (List Attrs)
  | .nil => .ok []
  | .cons (.leaf n o) cs => (oFillOverlay cs).map fun r => List.replicate (n + 1) (o.put false []) ++ r
  | .cons _ _ => .error .attributeError

/-- vega.py 1040-1044 and the like: a plot in one of the other combinations. -/
def oLeafPanel (n : ℕ) (o : PlotOpts) : SpecObj :=
  if n + 1 = 1 then .unit (o.put false []) else .layer [] (List.replicate (n + 1) (o.put false []))

mutual
/-- vega.py 1025-1046, 1066-1087, 1108-1130 `_fill` of `beside`, `below` and `grid`. -/
def oFillPanels : OCombL → Except Err (List SpecObj)
  | .nil => .ok []
  | .cons c cs =>
    match oFillPanel c with
    | .error e => .error e
    | .ok p => (oFillPanels cs).map fun ps => p :: ps
def oFillPanel : OComb → Except Err SpecObj
  | .leaf n o => .ok (oLeafPanel n o)
  | .node .overlay _ cs => (oFillOverlay cs).map fun us => .layer [] us
  | .node .beside _ cs => (oFillPanels cs).map fun ps => .concat true [] (.ofList ps)
  | .node .below _ cs => (oFillPanels cs).map fun ps => .concat false [] (.ofList ps)
  | .node (.grid _) _ _ => .error .attributeError
end

/-- vega.py 1110-1111 in the loop: a new row where the last one is full. -/
def oRows (numcol : ℕ) : List (List SpecObj) → List SpecObj → List (List SpecObj)
  | rows, [] => rows
  | rows, p :: ps =>
    if numcol ≤ (rows.getLastD []).length then oRows numcol (rows ++ [[p]]) ps
    else oRows numcol (rows.dropLast ++ [rows.getLastD [] ++ [p]]) ps

mutual
/-- vega.py 967-972 `recurse` in `Combination._options`: the settings of the plots, later ones replacing earlier ones. -/
def OComb.configs : OComb → Dct → Dct
  | .leaf _ o, d =>
    match o.config with
    | none => d
    | some c => d.update c
  | .node _ _ cs, d => cs.configs d
def OCombL.configs : OCombL → Dct → Dct
  | .nil, d => d
  | .cons c cs, d => cs.configs (c.configs d)
end

/-- vega.py 976-977. -/
def ownConfig (d : Dct) : Option Dct → Dct
  | none => d
  | some c => d.update c

/-- vega.py 964-982 `Combination._options`. -/
def combOptions (config : Option Dct) (cs : OCombL) (out : Attrs) : Attrs :=
  let d := ownConfig (cs.configs []) config
  if d.length ≠ 0 then putOpt "config" (some (.config d)) out else out

/-- vega.py 719-735, 887-897, 1007-1015, 1048-1056, 1089-1097, 1132-1140 `vegalite`. -/
def OComb.vegalite : OComb → Except Err SpecObj
  | .leaf n o => .ok (if n + 1 = 1 then .unit (o.put true []) else .layer (o.put true []) (List.replicate (n + 1) []))
  | .node .overlay config cs => (oFillOverlay cs).map fun us => .layer (combOptions config cs []) us
  | .node .beside config cs => (oFillPanels cs).map fun ps => .concat true (combOptions config cs []) (.ofList ps)
  | .node .below config cs => (oFillPanels cs).map fun ps => .concat false (combOptions config cs []) (.ofList ps)
  | .node (.grid n) config cs => (oFillPanels cs).map fun ps =>
      .concat false (combOptions config cs []) (.ofList ((oRows n [[]] ps).map fun r => .concat true [] (.ofList r)))

/-! ## scales and titles -/

/-- A scale in a specification: `{"zero": b}`, `{"domain": names}`, `{"type": v}`, or what the user gave. -/
inductive Scale
  | zero (b : Bool)
  | domain (names : List String)
  | type (v : J)
  | given (d : List (Key × J))

/-- What is said about a channel of the specification: its scale, and the title of its axis, legend or header. -/
structure Said where
  scale : Option Scale
  title : String

/-- vega.py 282, 433: the scales that were asked for. -/
structure ScaleOpts where
  x : Option J := none
  y : Option J := none
  color : Option J := none
  shape : Option J := none

/-- `encoding[name] = v`. -/
def encPut (name : String) (v : Said) : List (String × Said) → List (String × Said)
  | [] => [(name, v)]
  | p :: r => if p.1 = name then (name, v) :: r else p :: encPut name v r

/-- `name in encoding` and `encoding[name]`. -/
def encGet (enc : List (String × Said)) (name : String) : Option Said := (enc.find? fun p => p.1 = name).map (·.2)

/-- vega.py 681-684 and the like. -/
def scaleOf : J → Scale
  | .dict d => .given d
  | v => .type v

/-- vega.py 680-699, 869-883: one scale. -/
def encScale (name : String) (s : Option J) (enc : List (String × Said)) : List (String × Said) :=
  match s, encGet enc name with
  | some v, some e => encPut name { e with scale := some (scaleOf v) } enc
  | _, _ => enc

/-- A channel of the chain with the title of its axis; `order` is the order of the keys as texts, given or sorted. -/
inductive SaidChannel
  | overlay (title : String) (order : List String)
  | stack (title : String) (order : List String)
  | beside (title : String)
  | below (title : String)

/-- vega.py 654-678: one channel of the chain. -/
def encChannel (enc : List (String × Said)) : SaidChannel → List (String × Said)
  | .overlay t o => encPut "color" ⟨some (.domain o), t⟩ enc
  | .stack t o => encPut "order" ⟨none, ""⟩ (encPut "color" ⟨some (.domain o.reverse), t⟩ enc)
  | .beside t => encPut "column" ⟨none, t⟩ enc
  | .below t => encPut "row" ⟨none, t⟩ enc

/-- vega.py 630-638: the title of the vertical axis. -/
def ytitle (profile : Option String) (normalized : Bool) : String :=
  match profile with
  | some p => p
  | none => if normalized then "probability per bin" else "entries per bin"

/-- vega.py 652-699 in `Plotable1d._vegalite`. -/
def said1d (xtitle : String) (profile : Option String) (normalized : Bool) (chain : List SaidChannel) (s : ScaleOpts) : List (String × Said) :=
  let enc := chain.foldl encChannel [("x", ⟨some (.zero false), xtitle⟩), ("y", ⟨none, ytitle profile normalized⟩)]
  encScale "shape" s.shape (encScale "color" s.color (encScale "y" s.y (encScale "x" s.x enc)))

/-- vega.py 858-867: one channel of the chain of a heatmap. -/
def encChannel2d (enc : List (String × Said)) : SaidChannel → Except Err (List (String × Said))
  | .beside t => .ok (encPut "column" ⟨none, t⟩ enc)
  | .below t => .ok (encPut "row" ⟨none, t⟩ enc)
  | _ => .error .assertion

/-- vega.py 844-883 in `Plotable2d._vegalite`. -/
def said2d (xtitle ytitle : String) (profile : Option String) (chain : List SaidChannel) (s : ScaleOpts) : Except Err (List (String × Said)) :=
  (foldE encChannel2d [("x", ⟨some (.zero false), xtitle⟩), ("y", ⟨some (.zero false), ytitle⟩),
    ("color", ⟨some (.zero profile.isNone), profile.getD "entries per bin"⟩)] chain).map fun enc =>
  encScale "color" s.color (encScale "y" s.y (encScale "x" s.x enc))

end Verif
