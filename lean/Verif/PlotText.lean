import Verif.Text

/-!
# The text of plots

Model of `__repr__` of plotting chains and their channels in `/repo/histbook/vega.py`, on the tokens of `Verif.Text`.  An order of a stack is a tuple of
texts.  Of dicts and lists among the options only the name of the option is modelled.
-/

namespace Verif

/-- vega.py 75-91, 139-152: the options of the last channel. -/
structure TermOpts where
  profile : Option AxisX := none
  error : Option Bool := none
  normalized : Bool := false
  width : Option J := none
  height : Option J := none
  title : Option J := none
  config : Option J := none
  xscale : Option J := none
  yscale : Option J := none
  colorscale : Option J := none
  shapescale : Option J := none

/-- The last channel: bar, step, area, line or marker on one axis, or a heatmap on two. -/
inductive TermKind
  | bar | step | area | line | marker | heatmap
  deriving DecidableEq

/-- `_method` (vega.py 119-137, 176-178). -/
def TermKind.method : TermKind → String
  | .bar => "bar"
  | .step => "step"
  | .area => "area"
  | .line => "line"
  | .marker => "marker"
  | .heatmap => "heatmap"

/-- A channel of a plotting chain. -/
inductive ChannelX
  | overlay (a : AxisX)
  | stack (a : AxisX) (order : Option (List String))
  | beside (a : AxisX)
  | below (a : AxisX)
  | last (k : TermKind) (as : List AxisX) (o : TermOpts)

/-- `if value is not None: args.append(...)`. -/
def argIf (k : String) (v : Option (List Tok)) : List (List Tok) :=
  match v with
  | none => []
  | some t => [keyword k t]

/-- vega.py 97-98: the default of `error` depends on the kind; a heatmap has none. -/
def errorToks (k : TermKind) (e : Option Bool) : Option (List Tok) :=
  match k, e with
  | .heatmap, _ => none
  | .marker, some false => some (reprBool false)
  | .marker, _ => none
  | _, some true => some (reprBool true)
  | _, _ => none

/-- vega.py 95-116, 155-171: the options, each if it differs from the default. -/
def TermOpts.toks (k : TermKind) (o : TermOpts) : List (List Tok) :=
  argIf "profile" (o.profile.map AxisX.toks) ++ argIf "error" (errorToks k o.error) ++
  argIf "normalized" (if o.normalized && k ≠ .heatmap then some (reprBool true) else none) ++
  argIf "width" (o.width.map reprJ) ++ argIf "height" (o.height.map reprJ) ++ argIf "title" (o.title.map reprJ) ++
  argIf "config" (o.config.map reprJ) ++ argIf "xscale" (o.xscale.map reprJ) ++ argIf "yscale" (o.yscale.map reprJ) ++
  argIf "colorscale" (o.colorscale.map reprJ) ++ argIf "shapescale" (if k ≠ .heatmap then o.shapescale.map reprJ else none)

/-- `repr` of a tuple of texts. -/
def reprStrTuple : List String → List Tok
  | [x] => [.lpar, .str x, .comma, .rpar]
  | l => .lpar :: joinComma (l.map fun s => [.str s]) ++ [.rpar]

/-- `__repr__` of the channels without the dot in front (vega.py 48-49, 58-62, 67-68, 73-74, 93-117, 154-172).  The arguments of the last channel
are joined without a comma. -/
def ChannelX.toks : ChannelX → List Tok
  | .overlay a => callToks "overlay" [a.toks]
  | .stack a none => callToks "stack" [a.toks]
  | .stack a (some o) => callToks "stack" [a.toks, keyword "order" (reprStrTuple o)]
  | .beside a => callToks "beside" [a.toks]
  | .below a => callToks "below" [a.toks]
  | .last k as o => .name k.method :: .lpar :: (as.map AxisX.toks ++ o.toks k).flatten ++ [.rpar]

/-- `PlottingChain.__repr__` (vega.py 189-190): the texts before, between and after the dots. -/
def plotToks {β : Type} (h : HistX β) (chain : List ChannelX) : List (List Tok) := h.toks :: chain.map ChannelX.toks

end Verif
