import Verif.VegaLayers

/-!
# Specification of combinations of plots

A combination shows every plot as it is alone, with another name for its fields.
-/

namespace Verif

/-- The field with the same column of another plot. -/
def PName.rename (v : String) : PName → PName
  | .id => .id
  | .col _ i => .col v i
  | .centre _ i => .centre v i

/-- The name of the field as text. -/
def PName.text : PName → String
  | .id => "id"
  | .col v i => v ++ toString i
  | .centre v i => v ++ toString i ++ "c"

def Encoding.rename (v : String) (e : Encoding) : Encoding :=
  { x := e.x.rename v, xtype := e.xtype, y := e.y.rename v, color := e.color.map fun p => (p.1.rename v, p.2),
    order := e.order.map fun p => (p.1.rename v, p.2), column := e.column.map (PName.rename v), row := e.row.map (PName.rename v) }

def ErrorBars.rename (v : String) (e : ErrorBars) : ErrorBars := ⟨e.x.rename v, e.xtype, e.y.rename v, e.err.rename v⟩

def Encoding2.rename (v : String) (e : Encoding2) : Encoding2 :=
  { x := e.x.rename v, y := e.y.rename v, color := e.color.rename v, xbin := e.xbin, ybin := e.ybin,
    column := e.column.map (PName.rename v), row := e.row.map (PName.rename v) }

/-- The same drawing of the fields of another plot. -/
def Drawn.rename (v : String) : Drawn → Drawn
  | .one e => .one (e.rename v)
  | .errors e => .errors (e.rename v)
  | .two e => .two (e.rename v)

/-- The same record under another name, marked with this name. -/
def Datum.tagged (v : String) (d : Datum) : Datum := (.id, .str v) :: d.map fun p => (p.1.rename v, p.2)

/-- The record is marked with the name. -/
def Datum.hasId (v : String) (d : Datum) : Bool := decide (d.lookup .id = some (.str v))

mutual
/-- The plots of a combination, from left to right, and whether they are directly in an overlay. -/
def Comb.leaves : Comb → Bool → List (Leaf × Bool)
  | .leaf l, b => [(l, b)]
  | .node .overlay cs, _ => cs.leaves true
  | .node _ cs, _ => cs.leaves false
def CombL.leaves : CombL → Bool → List (Leaf × Bool)
  | .nil, _ => []
  | .cons c cs, b => c.leaves b ++ cs.leaves b
end

mutual
/-- All layers, from left to right. -/
def Panel.layers : Panel → List LayerSpec
  | .single l => [l]
  | .layer ls => ls
  | .hconcat ps => Panel.layersL ps
  | .vconcat ps => Panel.layersL ps
def Panel.layersL : List Panel → List LayerSpec
  | [] => []
  | p :: ps => p.layers ++ Panel.layersL ps
end

mutual
/-- The combination was made by the constructors, which accept all its parts. -/
def Comb.Built : Comb → Prop
  | .leaf _ => True
  | .node k cs => cs.Built ∧ combine k cs = .ok (.node k cs)
def CombL.Built : CombL → Prop
  | .nil => True
  | .cons c cs => c.Built ∧ cs.Built
end

/-- How pictures are arranged. -/
inductive Shape
  | plot
  | row (ss : List Shape)
  | column (ss : List Shape)

mutual
/-- How the combination is meant to look; grids are treated apart. -/
def Comb.shape : Comb → Shape
  | .leaf _ => .plot
  | .node .overlay _ => .plot
  | .node .beside cs => .row cs.shapes
  | .node .below cs => .column cs.shapes
  | .node (.grid _) cs => .column cs.shapes
def CombL.shapes : CombL → List Shape
  | .nil => []
  | .cons c cs => c.shape :: cs.shapes
end

mutual
/-- How the specification looks. -/
def Panel.shape : Panel → Shape
  | .single _ => .plot
  | .layer _ => .plot
  | .hconcat ps => .row (Panel.shapes ps)
  | .vconcat ps => .column (Panel.shapes ps)
def Panel.shapes : List Panel → List Shape
  | [] => []
  | p :: ps => p.shape :: Panel.shapes ps
end

end Verif
