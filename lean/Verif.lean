import Verif.Num
import Verif.Axis
import Verif.SpecBin
import Verif.AxisLemmas
import Verif.PropsBinning
import Verif.PropsKeys
import Verif.Fill
import Verif.SpecFill
import Verif.FillLemmas
import Verif.HistFill
import Verif.SpecHist
import Verif.HistLemmas
import Verif.PropsFill
import Verif.PropsFillErrors
import Verif.Arith
import Verif.ArithLemmas
import Verif.PropsArith
import Verif.Heap
import Verif.HeapLemmas
import Verif.WorldLemmas
import Verif.PropsHeap
import Verif.Proj
import Verif.SpecProj
import Verif.ProjLemmas
import Verif.PropsProject
import Verif.PropsSelect
import Verif.RebinLemmas
import Verif.PropsRebin
import Verif.SelectLemmas
import Verif.GroupSel
import Verif.GroupSelLemmas
import Verif.PropsGroupSel
import Verif.PropsDrop
import Verif.AxisObj
import Verif.AxisObjLemmas
import Verif.PropsAxisObj
import Verif.Table
import Verif.SpecTable
import Verif.PropsTable
import Verif.PropsTableNorm
import Verif.PropsFraction
import Verif.Expr
import Verif.ExprOrder
import Verif.SpecExpr
import Verif.ExprLemmas
import Verif.ExprWF
import Verif.LogicLemmas
import Verif.ParseLemmas
import Verif.ExprCanon
import Verif.ExprPoly
import Verif.ExprRing
import Verif.ExprQuot
import Verif.PropsExpr
import Verif.PropsExprOrder
import Verif.PropsExprQuot
import Verif.Tree
import Verif.TreeLemmas
import Verif.ExprAll
import Verif.SpecTree
import Verif.TreeRun
import Verif.PropsTree
import Verif.Memory
import Verif.PropsMemory
import Verif.Library
import Verif.PropsLibrary
import Verif.Instr
import Verif.SpecInstr
import Verif.InstrLemmas
import Verif.ExecLemmas
import Verif.PropsInstr
import Verif.PropsDefs
import Verif.Params
import Verif.PropsParams
import Verif.Goals
import Verif.GoalsLemmas
import Verif.PropsGoals
import Verif.Book
import Verif.SpecBook
import Verif.BookLemmas
import Verif.PropsBook
import Verif.AxisDesc
import Verif.SpecAxisDesc
import Verif.AxisDescLemmas
import Verif.PropsAxisDesc
import Verif.BookCompat
import Verif.PropsBookCompat
import Verif.HistJson
import Verif.SpecHistJson
import Verif.HistJsonLemmas
import Verif.PropsHistJson
import Verif.PropsHistEq
import Verif.BookJson
import Verif.PropsBookJson
import Verif.Attach
import Verif.PropsAttach
import Verif.BookFill
import Verif.PropsBookFill
import Verif.PropsBookHistory
import Verif.BookArith
import Verif.SpecBookArith
import Verif.BookArithLemmas
import Verif.PropsBookArith
import Verif.PropsHistMake
import Verif.BookMapping
import Verif.PropsBookMapping
import Verif.Samples
import Verif.SamplesLemmas
import Verif.PropsSamples
import Verif.BookView
import Verif.PropsBookView
import Verif.Export
import Verif.PropsRoot
import Verif.PandasLemmas
import Verif.PropsPandas
import Verif.PropsPandasNorm
import Verif.PropsPandasFraction
import Verif.ColumnNames
import Verif.PropsColumnNames
import Verif.Spark
import Verif.SpecSpark
import Verif.SparkLemmas
import Verif.PropsSpark
import Verif.Vega
import Verif.VegaLayers
import Verif.SpecVega
import Verif.VegaLemmas
import Verif.VegaAxis
import Verif.VegaOutline
import Verif.PropsVega
import Verif.PropsVegaOutline
import Verif.PropsVegaChain
import Verif.SpecVegaComb
import Verif.VegaCombLemmas
import Verif.PropsVegaComb
import Verif.SpecVegaHeat
import Verif.PropsVegaHeat
import Verif.VegaLegend
import Verif.PropsVegaLegend
import Verif.PropsVegaErrors
import Verif.SparkColumns
import Verif.SpecSparkColumns
import Verif.SparkColumnsLemmas
import Verif.SparkColumnsValue
import Verif.SparkColumnsTree
import Verif.PropsSparkColumns
import Verif.NumArith
import Verif.FloatFill
import Verif.SpecFloatFill
import Verif.FloatFillLemmas
import Verif.PropsFloatFill
import Verif.PropsBookCopy
import Verif.FractionErr
import Verif.PropsFractionErr
import Verif.Text
import Verif.SpecText
import Verif.TextLemmas
import Verif.PropsText
import Verif.ExprText
import Verif.SpecExprText
import Verif.ExprTextLemmas
import Verif.ExprTextMain
import Verif.ExprTextFlat
import Verif.PropsExprText
import Verif.CtorFill
import Verif.PropsCtorFill
import Verif.SelectExpr
import Verif.SpecSelectExpr
import Verif.SelectExprLemmas
import Verif.SelectExprSteps
import Verif.PropsSelectExpr
import Verif.GroupKeys
import Verif.PropsGroupKeys
import Verif.BookListing
import Verif.PropsBookListing
import Verif.Float64
import Verif.FloatBin
import Verif.PropsFloatBin
import Verif.FloatGroup
import Verif.PropsFloatGroup
import Verif.FloatSum
import Verif.PropsFloatSum
import Verif.FloatWidth
import Verif.PropsFloatWidth
import Verif.FloatSelect
import Verif.PropsFloatSelect
import Verif.PlotOptions
import Verif.PropsPlotOptions
import Verif.PlotText
import Verif.PropsPlotText
import Verif.BoolTree
import Verif.BoolTreeLemmas
import Verif.PropsBoolTree
import Verif.Syntax
import Verif.SyntaxLemmas
import Verif.PropsSyntax
import Verif.PropsRefill
import Verif.HeapSel
import Verif.HeapSelLemmas
import Verif.HeapKeep
import Verif.PropsHeapSel
import Verif.NumText
import Verif.SpecNumText
import Verif.NumTextLemmas
import Verif.PropsNumText
import Verif.PropsLabelRead
import Verif.PropsConstants
import Verif.FloatProfile
import Verif.PropsFloatProfile
import Verif.FloatFraction
import Verif.PropsFloatFraction
import Verif.FnNames
import Verif.PropsFnNames
import Verif.FloatRebin
import Verif.PropsFloatRebin
import Verif.PropsFloatRebinW
import Verif.FloatMerge
import Verif.PropsFloatMerge
import Verif.TypedOrder
import Verif.PropsTypedOrder
import Verif.IntTree
import Verif.IntTreeLemmas
import Verif.PropsIntTree
import Verif.IntShare
import Verif.PropsIntShare
import Verif.Unparse
import Verif.SpecUnparse
import Verif.UnparseLemmas
import Verif.PropsUnparse
import Verif.LinearLemmas
import Verif.PropsLinear
import Verif.OrderLemmas
import Verif.PropsOrder
import Verif.OrderProject
import Verif.PropsOrderProject
import Verif.OrderGroup
import Verif.PropsOrderGroup
import Verif.AxisItems
import Verif.PropsAxisItems
import Verif.PropsItemsNorm
import Verif.PropsOrderRefused
import Verif.Share
import Verif.PropsShare
import Verif.PropsAgain
import Verif.RebinSteps
import Verif.PropsRebinSteps
import Verif.SparkNull
import Verif.PropsSparkNull
import Verif.TextFields
import Verif.PropsTextFields
import Verif.FloatSqrt
import Verif.PropsFloatSqrt
import Verif.FloatWeighted
import Verif.PropsFloatWeighted
import Verif.PropsPandasOrder
import Verif.PropsSelectNan
import Verif.PropsFloatCount
import Verif.PropsSparkAlways
import Verif.PropsGroupInf
import Verif.PropsIntbinShare
import Verif.PropsScale
import Verif.PropsMixedAdd
import Verif.PropsNullProfile
import Verif.PropsSplitWidth
import Verif.PropsPlotSplit
import Verif.PropsGroupKeysObj
import Verif.PropsTolerance
import Verif.PropsMixedGroups
import Verif.PropsFailedAdd
import Verif.PropsMixedInplace
import Verif.PropsIntbinError
import Verif.PropsMixedCounts
import Verif.PropsFillAbsent
