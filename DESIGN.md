# Design: a Lean 4 model of histbook and what is proved about it

## 1. Method

`/repo` (Python, read as text, never run) is modelled function by function as small
total Lean functions. Python exceptions are values (`Except Err α` or `Option`).
Every definition of the model carries a comment with the file and lines it mirrors.
Properties are stated against a separate, small specification (sums over rows,
interval membership, evaluation of expressions), never against the helpers of the
model. If the code violates a property the *negation* is proved with a concrete
witness (`..._refuted`), and the part which does hold is proved as `..._partial`.

Layout (`/verif/lean/Verif/`):

| module | mirrors | content |
|---|---|---|
| `Num` | numpy scalars | numbers with NaN and infinities, cast to 32-bit index |
| `Axis` | `axis.py`, `calc/__init__.py` | axes, validation, published intervals, binning functions |
| `Arr`, `Fill` | `hist.py` `_postfill` | dense arrays, masked index arrays, `fillblock`, `filldict` |
| `Content` | `hist.py` | content trees, `+`, `+=`, `*`, `*=`, copy, equality |
| `Proj` | `proj.py`, `axis.py` | project, select, rebin, drop, table, fraction |
| `Expr` | `expr.py` | parse, normal forms, logic |
| `Instr` | `instr.py`, `fill.py` | call graph, walk, instructions, execution |
| `Book` | `book.py` | nested books, paths, fill through a book |
| `Heap` | aliasing in `hist.py`, `book.py` | references, copies, sharing |
| `Json` | `tojson`/`fromjson`/pickle | round trips |
| `Spark`, `Export` | `calc/spark.py`, `export.py` | Spark index algebra, pandas/ROOT labels |
| `Float64`, `Float*` | `calc/__init__.py`, `axis.py`, `hist.py` | counting, contents and bin widths in double precision |
| `Spec*` | - | specifications, independent of the model |
| `Props*` | - | the property theorems, each with an `example` of its hypotheses |

### Wrong programs

`seeded/LOG.jsonl` has one line for each deliberate mistake that was put into a copy of the model. How to read it:

* `first_failing`: the declarations at which the build of the copy reported errors. Since a module with an error stops
  everything that imports it, and recent builds were stopped soon after the first error, this is not a complete list.
* `theorems_failed`: the property theorems among `first_failing`, and those whose proofs use a declaration in it. For
  the latter it is known that the present proof breaks, not that the statement became false.
* `first_failing` with only `example@...`: no theorem noticed the mistake, a concrete example did. Such entries mark gaps,
  some of which later theorems closed (the copies of books in C82, the texts of labels in C117).
* Three early entries (`walkdown`, `samplesLoop`, `Prog.postAll`) did not compile as edited and count for nothing.
* `outcome` "survived at first": the build passed, and fails now that the named theorems are stronger.

## 2. Trusted base

* The Lean 4.33.0 kernel, and Mathlib as shipped.
* Axioms: at most `propext`, `Classical.choice`, `Quot.sound` for every theorem
  (checked with `#print axioms`; the list is in section 5).
  No `sorry`, no own axioms, no `native_decide`/`bv_decide`.
* The faithfulness of the model to the Python text, as argued in the comments.
* Behaviour of numpy/Python primitives as written in the model: `floor`, `ceil`,
  `digitize`, `unique`, `add.at`, boolean masks, masked arrays, slices, `sum`,
  dict/set semantics, tuple comparison; conversion of an out-of-range float to
  `int32` gives -2^31 (x86-64); conversion of an `int64` to `int32` wraps.

### Modelled and not modelled

* Arithmetic is exact rational arithmetic plus NaN and infinities. Rounding of
  binary64 is modelled in C104-C108 only (`Verif/Float64.lean`: counting on bin and groupbin axes, contents,
  merging, `binwidth`, selections on bin axes; no overflow to infinity, no signed zeros); in C09 the scaling function is arbitrary. C95 is about real numbers.
* Cell contents are exact rationals (no infinities or NaN inside cells), except in `Verif/FloatFill.lean`
  (C15, C16, C94), where filling is modelled again with NaN and infinite profile values, weights and contents.
* Library functions such as `sqrt` are uninterpreted functions (same function in the
  specification and in the model).
* The text -> Python AST step (`ast.parse`) is not modelled; the model starts at the AST.
* Of plotting (`vega.py`), the chains, the records, the fields that are drawn and the combinations are modelled,
  and apart from them titles, scales, sizes and `config` (C109, C110); the front ends and the drawing itself are not.
  Errors in records are squares.
* Texts (`repr`) are lists of tokens (C96, C97, C111); the characters of a literal, blanks and line breaks (`str`)
  are not modelled. Of `util/astunparse.py` the expressions are
  modelled (C126), without comprehensions, starred elements, slices and f-strings; statements cannot reach it. The
  internals of pandas and ROOT are not modelled.
  Of Spark, the documented behaviour of the functions that `fillspark` and `tocolumns` use is taken over
  (`Verif/Spark.lean` and `Verif/SparkColumns.lean` list it).
* In arithmetic, boolean values count as 0 and 1. NumPy does so next to numbers, but the sum of two boolean
  arrays is their disjunction, and their difference is refused; this is modelled for C113 only
  (`Verif/BoolTree.lean`), where `C113_numeric_partial` shows that other expressions do not notice.
* Iteration order of Python sets is an arbitrary order: theorems quantify over it.
* `numpy` versions: list-of-slices indexing in `_rebinsplit` is taken with its
  documented tuple meaning (recent numpy rejects it).

### Modules

Every definition of the model carries a comment with the file and lines it models.

| Module | Contents | Code cited |
| --- | --- | --- |
| Num | Numbers |  |
| Axis | Axes: construction, published bins, binning functions | axis.py, calc/__init__.py |
| SpecBin | Specification of binning |  |
| AxisLemmas | Lemmas about axes (helpers for the property theorems) |  |
| PropsBinning | Properties of binning (C01-C07, C09, C10) |  |
| PropsKeys | Properties of the published bins (C06), of conversions (C07), of rounding (C09) and of axes |  |
| Fill | Filling a histogram, given the computed columns | hist.py |
| SpecFill | Specification of filling | calc/__init__.py |
| FillLemmas | Lemmas about filling (helpers for the property theorems) |  |
| HistFill | Filling a histogram with rows | axis.py, calc/__init__.py, fill.py, hist.py |
| SpecHist | Specification of histogram contents |  |
| HistLemmas | Lemmas about filling a histogram with rows |  |
| PropsFill | Properties C08, C11-C16, C19, C20: filling | hist.py |
| PropsFillErrors | Properties C17 and C18: fills that raise |  |
| Arith | Arithmetic, copies and equality of contents | hist.py, proj.py |
| ArithLemmas | Lemmas about the arithmetic of contents (helpers for the property theorems) |  |
| PropsArith | Properties C21-C23, C25, C26, C29, C69: arithmetic and equality, on values | hist.py |
| Heap | Which objects histograms share | book.py, hist.py |
| HeapLemmas | Lemmas about the heap (helpers for the property theorems) |  |
| WorldLemmas | Lemmas about programs on histograms that may share objects (helpers) |  |
| PropsHeap | Properties of programs with several histograms: which histograms an operation changes |  |
| Proj | Projections, selections, rebinning and dropping of profiles | axis.py, expr.py, proj.py |
| SpecProj | Specification of projections and selections |  |
| ProjLemmas | Lemmas about projections |  |
| PropsProject | Properties of projections (C31-C33) |  |
| PropsSelect | Selections: property theorems C34-C38 and C40 |  |
| RebinLemmas | Lemmas about rebinning (helpers for C41) |  |
| PropsRebin | Rebinning: property theorems C41 and C42 |  |
| SelectLemmas | Lemmas about selections and rebinning (helpers for the property theorems) |  |
| GroupSel | Selections on group axes | axis.py, expr.py, proj.py |
| GroupSelLemmas | Lemmas about selections on group axes |  |
| PropsGroupSel | Selections on group axes: property theorems C39 |  |
| PropsDrop | Dropping profiles: property theorems C43 |  |
| AxisObj | Axis objects that several histograms share | hist.py, proj.py |
| AxisObjLemmas | Lemmas about shared axis objects |  |
| PropsAxisObj | Shared axis objects: property theorems C44 |  |
| Table | Tables and fractions | axis.py, proj.py |
| SpecTable | Specification of tables and fractions |  |
| PropsTable | Tables: property theorems C45 and C46 |  |
| PropsTableNorm | Normalized tables: property theorems C46 |  |
| PropsFraction | Tables of fractions: property theorems C47 |  |
| Expr | Expressions: parsing and normal forms | expr.py |
| ExprOrder | The order of expressions is a linear order |  |
| SpecExpr | Specification: the value of an expression as it is written |  |
| ExprLemmas | Values of normal forms | expr.py |
| ExprWF | Shapes of parsed expressions |  |
| LogicLemmas | Values of conditions in disjunctive normal form |  |
| ParseLemmas | Values of parsed expressions |  |
| ExprCanon | Collecting like terms | expr.py |
| ExprPoly | Arithmetic without division |  |
| ExprRing | Parsed arithmetic as polynomials |  |
| ExprQuot | Quotients |  |
| PropsExpr | C48–C50: parsing keeps values |  |
| PropsExprOrder | C51: the order of operands does not matter |  |
| PropsExprQuot | C48 and C49 for quotients |  |
| Tree | Computation trees | calc/__init__.py, expr.py, instr.py |
| TreeLemmas | Lemmas about computation trees |  |
| ExprAll | What occurs in a parsed expression |  |
| SpecTree | Which expressions can be computed |  |
| TreeRun | Lemmas: expressions that can be computed |  |
| PropsTree | C52 and C77: computing an expression |  |
| Memory | Calculation on arrays in memory | calc/__init__.py |
| PropsMemory | C78: filling does not change the user's arrays |  |
| Library | Functions of the library that work on rational numbers | calc/__init__.py |
| PropsLibrary | C79: the functions have their standard meaning |  |
| Instr | From the requested quantities to instructions, and their execution | expr.py, fill.py, instr.py |
| SpecInstr | Specification of one-pass computation |  |
| InstrLemmas | Lemmas about graphs, walks and instructions |  |
| ExecLemmas | Lemmas about the execution of instructions |  |
| PropsInstr | C53 and C54: computing all requested quantities in one pass |  |
| PropsDefs | C55: definitions | expr.py |
| Params | The arguments of `fill` | expr.py, fill.py, hist.py, util/__init__.py |
| PropsParams | C75: the arguments of `fill` |  |
| Goals | From the expressions of a histogram to its filling | axis.py, calc/__init__.py, fill.py, hist.py |
| GoalsLemmas | Lemmas about the quantities of a histogram |  |
| PropsGoals | C81: from the arguments of `fill` to the content |  |
| Book | Books | book.py, fill.py |
| SpecBook | Specification of books |  |
| BookLemmas | Lemmas on books |  |
| PropsBook | Properties of books as dictionaries (C56-C59) |  |
| AxisDesc | Axis descriptions: constructors, equality, packing, JSON | axis.py, hist.py |
| SpecAxisDesc | Specification of axis descriptions |  |
| AxisDescLemmas | Lemmas on axis descriptions |  |
| PropsAxisDesc | Properties of axis descriptions and intervals (C74, C76, and C63 for axes and histograms) |  |
| BookCompat | Compatible books | book.py, hist.py |
| PropsBookCompat | Properties of compatible books (C63) |  |
| HistJson | Histograms as objects: constructor, pickling and JSON | hist.py |
| SpecHistJson | Specification of restored histograms |  |
| HistJsonLemmas | Lemmas on restored histograms |  |
| PropsHistJson | Properties of restored histograms (C66, C67) |  |
| PropsHistEq | Property theorems: what it means that two histograms are equal (C69), and what `fromjson` refuses (C67) |  |
| BookJson | Books as JSON | book.py |
| PropsBookJson | Properties of restored books (C68) |  |
| Attach | Attachments | book.py, hist.py, proj.py |
| PropsAttach | Properties of attachments (C70) |  |
| BookFill | Filling a book | book.py, fill.py, hist.py |
| PropsBookFill | Properties of the filling of books (C60, C61, C65) |  |
| PropsBookHistory | Changes and fillings of books in any order (C61, C65) |  |
| BookArith | Arithmetic of books | book.py, hist.py |
| SpecBookArith | Specification of the arithmetic of books |  |
| BookArithLemmas | Lemmas on the arithmetic of books |  |
| PropsBookArith | Arithmetic of books: C62 |  |
| PropsHistMake | Constructing a histogram: C83 |  |
| BookMapping | Books as mappings | book.py |
| PropsBookMapping | Books as mappings: C84 |  |
| Samples | Samples books, and filling books whose histograms share contents | book.py, hist.py |
| SamplesLemmas | Lemmas about samples books (helpers) |  |
| PropsSamples | Samples books: C64 |  |
| BookView | Views of books | book.py |
| PropsBookView | Views of books: C85 |  |
| Export | Export to ROOT and pandas | axis.py, export.py, proj.py |
| PropsRoot | C73: ROOT export puts each bin in its place |  |
| PandasLemmas | Lemmas about the pandas export |  |
| PropsPandas | C72: exported table rows carry the right labels | axis.py |
| PropsPandasNorm | C72: exported rows of normalized tables |  |
| PropsPandasFraction | C72: exported rows of fractions |  |
| ColumnNames | Names of columns and levels (proj.py 538-548, 697-707, 615, 776; export.py 70-85, 149-156) | export.py, proj.py |
| PropsColumnNames | C112: names of columns and levels |  |
| Spark | Filling a histogram from a Spark DataFrame | calc/spark.py, hist.py |
| SpecSpark | Specification of filling from Spark |  |
| SparkLemmas | Lemmas about filling from Spark (helpers for the property theorems) |  |
| PropsSpark | Filling from Spark (C71) |  |
| Vega | Plotting | axis.py, proj.py, vega.py |
| VegaLayers | Layers and combinations of plots | axis.py, vega.py |
| SpecVega | Specification of plots |  |
| VegaLemmas | Lemmas about plots |  |
| VegaAxis | Lemmas about the bins that plots show |  |
| VegaOutline | Lemmas about outlines |  |
| PropsVega | C86: plots of one variable show every bin once, with its value |  |
| PropsVegaOutline | C87: outlines follow the bins |  |
| PropsVegaChain | C91: which chains of plotting calls are allowed |  |
| SpecVegaComb | Specification of combinations of plots |  |
| VegaCombLemmas | Lemmas about combinations of plots |  |
| PropsVegaComb | C90: combinations show every plot as it is alone |  |
| SpecVegaHeat | Specification of heatmaps |  |
| PropsVegaHeat | C88: heatmaps show every finite bin once, with its value |  |
| VegaLegend | Lemmas on legends |  |
| PropsVegaLegend | C89: legends, stacks and split pictures name what the records have |  |
| PropsVegaErrors | C92: error bars are at the bins |  |
| SparkColumns | Expressions as Spark columns | calc/spark.py |
| SpecSparkColumns | Which expressions Spark can compute, and where it computes the same number |  |
| SparkColumnsLemmas | Lemmas about Spark columns |  |
| SparkColumnsValue | Lemmas: the value of a Spark column |  |
| SparkColumnsTree | Lemmas: the tree of an expression as a Spark column |  |
| PropsSparkColumns | C93: an expression on Spark |  |
| NumArith | Floating point addition and multiplication |  |
| FloatFill | Filling with numbers that may be NaN or infinite | fill.py, hist.py |
| SpecFloatFill | Specification of filling with numbers that may be NaN or infinite |  |
| FloatFillLemmas | Lemmas about filling with numbers that may be NaN or infinite |  |
| PropsFloatFill | Filling with NaN and infinite numbers: C94, and what becomes of C15 and C16 | hist.py |
| PropsBookCopy | Copies of books: C82 |  |
| FractionErr | Errors of fractions | proj.py |
| PropsFractionErr | Errors of fractions: C95 |  |
| Text | The text of axes and histograms | axis.py, hist.py |
| SpecText | Specification of text: how Python reads it | __init__.py, axis.py |
| TextLemmas | Lemmas about reading text |  |
| PropsText | Properties of text (C96) |  |
| ExprText | The text of an expression | expr.py |
| SpecExprText | Reading an expression |  |
| ExprTextLemmas | Lemmas on reading expressions |  |
| ExprTextMain | Helper lemmas: what is read of the text of an expression | e.py, h.py, x.py |
| ExprTextFlat | Helper lemmas: which parsed expressions are shown with all parentheses that they need |  |
| PropsExprText | Property theorems: the text of an expression (C97) | e.py |
| CtorFill | The argument `fill` of the constructor | hist.py |
| PropsCtorFill | Property theorems: filling in the constructor (C98) |  |
| SelectExpr | `select` with a boolean expression | axis.py, expr.py, proj.py |
| SpecSelectExpr | Specification of selections with boolean expressions |  |
| SelectExprLemmas | Selections with boolean expressions: lemmas |  |
| SelectExprSteps | Selections with boolean expressions: one axis at a time |  |
| PropsSelectExpr | `select` with a boolean expression: property theorems C99 | proj.py |
| GroupKeys | The axes of a histogram by position, expression or class; `groupkeys`; `togroup` | axis.py, hist.py, proj.py |
| PropsGroupKeys | C100-C102: `groupkeys`, `togroup` and the lookup of axes |  |
| BookListing | Listing the entries of a book | book.py |
| PropsBookListing | C103: listing the entries of a book |  |
| Float64 | Rounding of the machine's numbers |  |
| FloatBin | Counting in bins with the machine's arithmetic | axis.py, calc/__init__.py |
| PropsFloatBin | C104: counting in bins with the machine's arithmetic |  |
| FloatGroup | Grouping by intervals with the machine's arithmetic | axis.py, calc/__init__.py |
| PropsFloatGroup | C105: grouping by intervals with the machine's arithmetic |  |
| FloatSum | Contents with the machine's arithmetic | calc/__init__.py, hist.py |
| PropsFloatSum | C106: contents with the machine's arithmetic |  |
| FloatWidth | The published bin width with the machine's arithmetic | axis.py |
| PropsFloatWidth | C107: the published bin width |  |
| FloatSelect | Selections on a bin axis with the machine's arithmetic | axis.py, calc/__init__.py |
| PropsFloatSelect | C108: selections on a bin axis with the machine's arithmetic |  |
| PlotOptions | Options of plots | vega.py |
| PropsPlotOptions | C109: sizes, titles and settings of plots; C110: scales and titles of axes |  |
| PlotText | The text of plots | vega.py |
| PropsPlotText | C111: the text of a plot |  |
| BoolTree | Boolean arrays in computation trees | calc/__init__.py |
| BoolTreeLemmas | Lemmas about boolean arrays in computation trees |  |
| PropsBoolTree | C113: boolean arrays in arithmetic |  |
| Syntax | Syntax that expressions do not support | expr.py, instr.py |
| SyntaxLemmas | Lemmas on unsupported syntax |  |
| PropsSyntax | C114: nothing in an expression is ignored |  |
| PropsRefill | Filling a derived histogram further: property theorems C115 |  |
| HeapSel | Which objects derived histograms share with the original | axis.py, hist.py, proj.py |
| HeapSelLemmas | Lemmas about objects of derived histograms (helpers for the property theorems) |  |
| HeapKeep | What a fill keeps |  |
| PropsHeapSel | C116: whether a derived histogram has data of its own |  |
| NumText | Texts of numbers in labels | axis.py |
| SpecNumText | How a reader understands the text of a number |  |
| NumTextLemmas | Lemmas about the texts of numbers |  |
| PropsNumText | Labels in plots: property theorems C117 |  |
| PropsLabelRead | Labels in plots as a reader takes them: property theorems C117 |  |
| PropsConstants | The names of constants in conditions: property theorems C99 |  |
| FloatProfile | Profiles with the machine's arithmetic | axis.py, hist.py, proj.py |
| PropsFloatProfile | Profiles in double precision: property theorems C118 |  |
| FloatFraction | Fractions with the machine's arithmetic | axis.py, calc/__init__.py, hist.py, proj.py |
| PropsFloatFraction | Fractions in double precision: property theorems C119 |  |
| FnNames | Names of functions in expressions | calc/__init__.py, expr.py |
| PropsFnNames | The functions in expressions are those that were written: property theorems C120 | expr.py |
| FloatRebin | Rebinning with the machine's arithmetic | axis.py, proj.py |
| PropsFloatRebin | C121: rebinning a `bin` axis with the machine's arithmetic |  |
| PropsFloatRebinW | C121: rebinning with weights, with the machine's arithmetic |  |
| FloatMerge | Filling in parts and adding, with the machine's arithmetic | hist.py |
| PropsFloatMerge | C122: filling in parts and adding, with the machine's arithmetic |  |
| TypedOrder | The order of expressions with the types of their constants | expr.py |
| PropsTypedOrder | C123: parsed expressions do not depend on the order in which equal parts are written, types of constants included |  |
| IntTree | Integer arrays of limited width | calc/__init__.py |
| IntTreeLemmas | Sums and products of integer arrays |  |
| PropsIntTree | C124: integer columns of limited width |  |
| IntShare | Shared computations and the types of constants | calc/__init__.py, expr.py, instr.py |
| PropsIntShare | C125: quantities filled together do not influence each other, the types of their constants included |  |
| Unparse | What the message about a refused expression quotes | astunparse.py, expr.py |
| SpecUnparse | Reading Python's expressions |  |
| UnparseLemmas | Lemmas: reading what `tostring` writes |  |
| PropsUnparse | C126: what a refused expression is quoted as |  |
| LinearLemmas | Lemmas about derived histograms of sums and multiples (helpers for the property theorems) |  |
| PropsLinear | Property C127: deriving from a sum |  |
| OrderLemmas | Lemmas about the order of operations on different axes (helpers for the property theorems) |  |
| PropsOrder | Property C128: operations on different axes may be done in any order |  |
| OrderProject | Lemmas about projections after operations on a kept axis (helpers for the property theorems) |  |
| PropsOrderProject | Property C128, projections: a projection and an operation on an axis that is kept may be done in either order |  |
| OrderGroup | Lemmas about projections and selections of groups (helpers for the property theorems) |  |
| PropsOrderGroup | Property C128, projections and selections of groups |  |
| AxisItems | The items of an axis | axis.py, proj.py |
| PropsAxisItems | C129: the items of axes |  |
| PropsItemsNorm | C129: the items of axes of normalized tables |  |
| PropsOrderRefused | Property C128, projections and selections of groups that are refused |  |
| Share | Lemmas about selections as positions on an axis (helpers for the property theorems) |  |
| PropsShare | Property C130: a selection and the opposite selection share out the entries |  |
| PropsAgain | Property C131: repeating a selection changes nothing |  |
| RebinSteps | Lemmas about rebinning in steps (helpers for the property theorems) |  |
| PropsRebinSteps | Property C132: rebinning in steps |  |
| SparkNull | Filling a histogram from a Spark DataFrame with missing values | calc/spark.py, hist.py |
| PropsSparkNull | Property C133: missing values in Spark data |  |
| TextFields | Fields that hold texts | fill.py, hist.py |
| PropsTextFields | C81 with fields that hold texts | fill.py |
| FloatSqrt | Square roots with the machine's arithmetic | hist.py, proj.py |
| PropsFloatSqrt | Errors of contents in double precision: property theorems C134 |  |
| FloatWeighted | Profiles with weights in double precision | hist.py, proj.py |
| PropsFloatWeighted | C118 with weights |  |
| PropsPandasOrder | The order of exported groups (C72, C129) | export.py |
| PropsSelectNan | Selecting NaN (C38) | axis.py |
| PropsFloatCount | How far an unweighted count in double precision goes |  |
| PropsSparkAlways | Where Spark and arrays disagree, for all fields and all rows |  |
| PropsGroupInf | Selecting numeric groups with an infinity, and next to a group of NaN |  |
| PropsIntbinShare | The entries beyond the integers of an intbin axis cannot be selected |  |
| PropsScale | Multiples of a histogram and sums of it with itself |  |
| PropsMixedAdd | Adding weighted and unweighted histograms |  |
| PropsNullProfile |  |  |
| PropsSplitWidth |  |  |
| PropsPlotSplit |  |  |
| PropsGroupKeysObj |  |  |
| PropsTolerance |  |  |
| PropsMixedGroups | Adding weighted and unweighted histograms with group axes |  |
| PropsFailedAdd | Property C135: an in-place addition that raises leaves the histogram as it was | hist.py |
| PropsMixedInplace | Adding weighted and unweighted histograms in place |  |
| PropsIntbinError | The exceptions of refused selections on intbin axes |  |
| PropsMixedCounts | Adding weighted and unweighted histograms without profiles |  |
| PropsFillAbsent | What a fill that raises leaves alone |  |

## 3. Plan per property

"law" = algebraic law, "inv" = invariant by induction over a history, "ref" =
refinement to a specification, "dec" = decision logic, "neg" = counterexample expected.

| id | what is modelled | how |
|---|---|---|
| C01 | `histbook_bin` index function and `bin.keys` | ref: index = position of the containing interval |
| C02 | same with infinities and int32 cast | neg (+inf counted as underflow); partial: in 32-bit range |
| C03 | `digitize`-based `histbook_split`, `split.keys` | ref, induction on edges |
| C04 | `histbook_intbin` for integer and float arrays | ref for integers in 32-bit range; neg for wrap-around and truncation |
| C05 | `histbook_groupbin`, `groupbin.items` | ref |
| C06 | `keys()` of all fixed axes | ref: existence and uniqueness of the containing interval |
| C07 | `bin.split`, `intbin.bin` | ref via C01 and C03 |
| C08 | index combination in `_postfill` | induction on axes |
| C09 | `histbook_bin` with arbitrary scaling | inv: range; monotonicity |
| C10 | `histbook_bin` with 0 bins | neg; partial |
| C11 | `fillblock`, `_postfill` without groups | ref + induction over the fill history |
| C12 | `filldict` with group axes | law; neg for >= 2 group axes; partial |
| C13 | as C12 | law under permutations |
| C14 | fill and the sum over cells | law |
| C15 | NaN weights | ref |
| C16 | filter weights | ref; neg for group keys |
| C17 | `_prefill`, `_fill`, `_postfill` in sequence | dec; neg |
| C18 | `fillblock` with mask and profiles | neg; partial |
| C19 | fill histories | inv (Cauchy-Schwarz) |
| C20 | `filldict` keys | inv; neg |
| C21-C23, C25 | content trees | law |
| C24, C27, C28, C64 | heap of arrays and dicts | inv on reachable references; neg |
| C26 | scaling columns | neg; partial |
| C29, C30 | `__add__` checks, `group` | dec; neg |
| C31-C33 | `project` incl. `addall` | ref; neg for key counts that are not powers of two |
| C34-C38 | `_select` of each axis and slicing | ref; neg for NaN |
| C39 | closures as data with mutable slots | neg (>= 3 terms); partial |
| C40 | `select` dispatch for cuts | dec; neg for conjunctions |
| C41 | `_rebinsplit` loops | ref |
| C42 | `rebinby` | neg: raises for every axis |
| C43 | `drop` | neg; partial |
| C44 | axis objects with shared `_shapeindex` | neg; partial |
| C45-C47 | `table`, `fraction` | ref; neg |
| C48-C51, C55 | parser on ASTs | ref to evaluation; neg |
| C52 | `totree` | ref; neg for negated predicates |
| C53, C54 | graph, walk, instructions, execution | inv over every order; neg for constants-only calls |
| C56-C59 | nested books | law; neg |
| C60, C61, C65 | fill through a book, caching | ref; neg |
| C62 | book arithmetic | law; neg |
| C63 | `compatible`, neighbour check | law |
| C66-C68, C76 | state, JSON, axis packing | law (round trip); neg for non-string keys |
| C69 | `__eq__`, `_prefill` | law; neg |
| C70, C75 | dictionaries | law; neg for sums |
| C71 | `fillspark` index algebra | ref; neg |
| C72, C73 | row labels, ROOT slices | ref |
| C74 | interval order | law; neg |
| C77-C81 | instructions, goals, fill from arrays | ref |
| C82-C85 | copies, constructor, mappings and views of books | law; neg |
| C86, C87 | `Plotable1d._data` with projection and table | ref to the rows in each cell; neg |
| C88 | `Plotable2d._data` and `_vegalite` | ref to the rows in each cell; neg |
| C89, C92 | `Plotable1d._vegalite` | ref to the records; neg |
| C90 | combinations of plots | ref by induction on trees; neg |
| C91 | plot chains | decision logic |
| C93 | expressions on Spark | ref by induction on expressions; neg |
| C94 | NaN and infinite values in filling | ref: floating-point sum over the rows of the bin |
| C95 | `_fraction`: columns and methods of errors | ref (real numbers); neg |
| C96 | `__repr__` of axes and `Hist` | ref: reader of Python calls; neg |
| C97 | `__str__` of expressions | ref: precedence reader; inv by induction; neg |
| C98 | `fill` argument of `Hist.__init__` | decision; neg |
| C99 | `select`, `_select` (`asconst`, `normalizeexpr`, `logical`), `_selectaxis` | ref: content of the rows that satisfy the expression; inv by induction over conditions; neg |
| C100 | `groupkeys` | ref to what was filled; inv by induction over the groups; neg |
| C101 | `togroup` | neg |
| C102 | `AxisTuple` | ref; decision; neg |
| C103 | listings of `GenericBook` | ref to paths; induction; neg |
| C104 | `histbook_bin`, `bin.keys` in double precision | ref within an error bound; mono; neg |
| C105 | `histbook_groupbin`, `groupbin.keys` in double precision | ref within an error bound; mono; neg |
| C106 | `_fill`, `__add__` in double precision | ref; induction over rows; neg |
| C107 | `bin.binwidth` in double precision | ref within an error bound; termination; neg |
| C108 | `bin._select` in double precision | ref within an error bound; commutes with filling; neg |
| C109 | `_options` of plots and combinations, `_fill`, `Combination.__init__` | inv over nested combinations; ref of settings to the intended ones; neg |
| C110 | titles and scales in `_vegalite` | ref to what was asked for; neg |
| C111 | `__repr__` of chains and channels | round trip through a reader of Python tokens; neg |
| C112 | `columns` in `table` and `_fraction`, `view` as records, `names` in `pandas` | ref: each field has what its name says; neg |
| C113 | `calculate` and `library` with boolean and numeric arrays; `totree` | ref: value with 0 and 1 where no two booleans are added; neg for all sums of flags |
| C114 | `Expr.parse` on unsupported nodes and keyword arguments; refusal by `totree` | ref: refused if the value depends on it; neg: differences, quotients, keywords |
| C115 | `Represents` of the result of each operation (C31, C34–C36, C39–C43) continued with further batches; the excess over the operation applied last is the total of an explicit list of rows | algebraic laws; refuted for cuts, groups and profiles |
| C116 | heap of arrays and dicts (as for C24): `filterHeap` takes the values of the dict of the selected axis as they are, `mapHeap` makes new dicts and arrays; programs that fill both histograms | separation invariant by induction over the program; refuted for group axes, with an invariant that the arrays stay shared |
| C117 | `numChars` is Python's format `g` on rationals; the texts of C86–C89 instantiated with it; `decimalVal` reads decimal notation | error bound and order by rounding lemmas, injectivity by reading back what is written; refuted for narrow bins at large positions |
| C118 | `BinAxis.profFill`, `profCellF` (`rne` after every operation of proj.py 594-612 and of the sums) | forward error analysis: growth of relative errors, multiples of powers of two exclude underflow, Cauchy–Schwarz; refuted by three entries of 0.1 (NaN) and by a lost spread; the same with weights (`BinAxis.wprofFill`, `wprofCellF`) |
| C119 | `BinAxis.fillCuts`, `denomF`, `passF`, `fracCellF` (`rne` after every operation of hist.py 442-449 and proj.py 686-755) | sums of sublists of non-negative numbers are smaller after rounding; sums of counts are exact; growth of relative errors; refuted for negative weights |
| C120 | `PyWorld.resolve`, `PyWorld.recognizedDict` (the calls of `_recognize`), `PyWorld.calleeName`, `librarySets` | invariant of a dict through a list of assignments (what is put in last counts; equal objects only under equal names), then comparison with a separate table of NumPy's names; refuted for fmod and for errors after a dot |
| C121 | `BinAxis.edgesF`, `splitF`, `rebinSums`, `rebinF` (axis.py 660-687, 1146-1207 with `rne` after every operation) | the edges are strictly increasing because their error is smaller than the bins; a value far from the edges is in the same bin of the regular and of the split axis; the ranges of `rebinRanges` are unions of bins; sums of counts are exact; refuted for values on edges and for edges written as decimals |
| C122 | `Plan` (any tree of fills and additions), `Plan.run` with `mergeF` and `fillAllF` (hist.py 379-450, 495-534 with `rne` after every addition) | induction over the tree: growth of relative errors, exactness of integers below 2^53, monotonicity of rounding; associativity refuted |
| C123 | `KVal`, `TE`, `TE.eq`, `TE.lt` (expr.py 504-513, 537-541, 608-615, 647-654, 913-920, 1002-1009, 1046-1053), `pySort` (count_run and binary insertion of CPython), `TE.factors` (667-678), `TE.Iterates`, `TE.logicalArgs` (905) | structural induction: strict total order on expressions over consistent constants; invariants of the runs and of the bisection; uniqueness of sorted permutations; four refutations |
| C124 | integer columns wrap modulo a power of two: `computedI` calculates the parsed tree with NumPy's integer rules; `IntbinAxis.indexType` the index function of `intbin` | induction over the syntax for the collected terms (`Poly.IntFlat`), over the tree for the residues (`IntArr.val`) |
| C125 | equal subexpressions are computed once: `TT.share` puts the first of equal nodes in the place of each; constants are integers or floating point numbers | erasing the types (`TT.untyped`) commutes with evaluation when nothing overflows; equality is equality of the erased trees |
| C126 | `PyTree.quote` is the unparser, a function from syntax trees to tokens or an exception; `Py.parseQ` is the parser with the node it quotes | a reader `rdE` for Python's expressions with precedences, written apart; every text is one operand of the grammar, by induction on the tree with a bound on the steps of the reader; `parseQ` without the quoted node is the parser of C48 |
| C127 | the operations of C31, C34 to C36, C39, C41, C43 and the sums and multiples of C21, C25 | every operation acts on the arrays by a linear function (`LinearOp`) or on the keys by a test; induction on the nesting of the content |
| C128 | the same operations | `select` and `rebin` are one function `applyAt` with an axis operation and an array operation; array operations on different axes commute, tests of keys commute with everything; for a range the two slices are computed |
| C129 | axis.py 225-230, 321-329, 517-525 and the user's loops over a table (AxisItems.lean); the table of C45 | each loop is a `mapE`; induction on the axes turns the loops into a list of cells, whose labels say the same as the bins and keys of C45 |
| C130 | `select` of C34-C39 (Proj.lean, GroupSel.lean) | the accepted comparison cuts the axis at a position (`CutAt`), the opposite one at the same position; the sums over both parts and the bin for NaN are the sum over the axis; the tests of opposite comparisons of keys have opposite results |
| C131 | the same, and the selection of expressions (SelectExpr.lean) for the cut axis | the position of the cut on the new axis is its end (for split axes, the nearest edge of a part that has it); slicing all of it changes nothing; for groups, all that passed once passes again |
| C132 | `rebin` of C41 (Proj.lean) | a rebinned bin collects the bins between two borders; the borders of the second step, looked up in the first, are the borders of the direct step, and sums over consecutive blocks are sums over the whole |
| C133 | calc/spark.py again with null in every column (SparkNull.lean) | filling with nulls is filling with NaN and zero in their places: indexes, structs, sums and the loop over the results correspond one by one, then C71 |
| C134 | `FloatSqrt`: filling of sumw and sumw2 in double precision and the column of errors of a table, with `numpy.sqrt` rounded to nearest | nearest double by cases on the half bit; monotone by nearness; error bounds from C106/C118 |
| C135 | `iaddContent`, `iaddLeft`, `iaddState`: in-place addition, with the content at the time of the exception | with at most one level of groups the arrays are all added or all refused, by their shapes, so that the first refusal comes before any change; witnesses with two levels and with a mixed sum |

No property is "not applicable" so far.

## 4. Disagreements and violated properties

Where the code violates a property, the negation is proved with a witness or in general (`Cxx_…` theorems
without `_partial` that say "fails" in their comment), and a `_partial` theorem covers the rest. The model follows
the code; no disagreement between model and code is known. Per property:

* **C01** (proved): Exact rational arithmetic; position at most 2^31-3 bins above low.
* **C02** (partial): Violated by the code: +inf and very large values are counted as underflow (C02_refuted). The part that holds is C02_partial.
* **C03** (proved): Every edge list the constructor accepts, every value including NaN and infinities.
* **C04** (partial): Violated by the code: int64 values wrap modulo 2^32 (C04_refuted_wraps) and non-integers are truncated toward zero (C04_refuted_truncates). Holds for integers within int32.
* **C05** (partial): Proved for finite values; the interval of the "NaN" group cannot be read back (C05_refuted_nan_interval).
* **C06** (proved): bin (at least one regular bin), split and intbin.
* **C07** (proved): Exact rational arithmetic, positions within int32.
* **C08** (proved): Any number of fixed axes.
* **C09** (proved): The rounded position is an arbitrary number.
* **C10** (partial): Violated by the code: C10_refuted, C10_refuted_raises; C10_every_value_same_bin says what happens instead.
* **C11** (proved): Any sequence of fills, any number of group axes; exact rational arithmetic.
* **C12** (partial): Same cells for every way of batching (C12_batches_partial). Equality including the set of groups is violated with two or more group axes (C12_refuted).
* **C13** (proved): Cells and group keys.
* **C14** (proved): Conservation for any flow-bin setting; with all flow bins on every row is counted.
* **C15** (partial): Proved for the sums of weights and squared weights whatever the values (C15_nan_weight_partial), and for profiles whose values are finite in the rows with NaN weight. Violated otherwise: zero times NaN or infinity makes the sums of the profile NaN (C15_refuted; C15_refuted_in_general: always).
* **C16** (partial): All columns of all cells if the values of profiles are numbers in the rows that do not pass (C16_filter_partial, C16_numbers_partial; the weights may be anything). Violated for the set of groups: a group with no passing row still appears (C16_refuted); and for profiles: a row that does not pass makes the sums of its bin NaN if its value is NaN or infinite (C16_refuted_profile: always).
* **C17** (partial): Without group axes nothing changes, whatever the data. Violated with a group axis (C17_refuted); even then every group whose key on some axis is not among those of the rows reads as before (C17_absent_partial) and is not made (C17_no_new_groups), and no group is lost (C17_groups_kept).
* **C18** (partial): Violated by the code (C18_refuted); C18_always_raises says when it raises; C18_partial is what holds.
* **C19** (proved): Cauchy-Schwarz for non-negative weights.
* **C20** (partial): One group axis: exact. Several: C20_groups_exactly says which groups exist; the property is violated (C20_refuted).
* **C21** (proved): == and equal entries with the histogram filled with all batches; equal entries for any other batching of the same rows.
* **C22** (proved): Proper contents (arrays of the right shape in dicts with distinct keys), which is what fill, + and * produce.
* **C23** (partial): value of a += b proved equal to a + b for any two histograms of any program; right operand unchanged, also later, for histograms made by the constructor; refuted when one is a sum that shares groups with the other
* **C24** (partial): proved for histograms without group axes, under arbitrary programs; refuted with group axes (leaf arrays are shared)
* **C25** (partial): Violated by the code for histograms that were never filled (C25_refuted_unfilled); holds for filled ones, sums of factors and repeated sums included.
* **C26** (partial): Violated by the code: sums of squared weights are scaled by k instead of k^2 (C26_refuted), which is right exactly for the factors 0 and 1 and for histograms without squared weights (C26_right_iff); the other columns are right.
* **C27** (proved): heap model with sharing, arbitrary programs before and after
* **C28** (partial): direct fill of the copy and everything after it proved; refuted for fills through a book and for filling the original first
* **C29** (partial): Violated by the code: without profiles every sum of an unweighted and a weighted histogram is accepted and adds counts to squared weights, in every common group (C29_refuted_always, C29_refuted_counts); with group axes every sum of two without a common group is accepted and has arrays of different shapes (C29_refuted_groups, C29_refuted_apart). Same columns are added column by column; with a profile, every sum of two with a common group (or without group axes) raises ValueError (C29_raises_partial, C29_common_partial). In place, an unweighted histogram refuses a weighted one, and with a profile a weighted one an unweighted one, exactly if they have a group in common (C29_inplace_partial).
* **C30** (partial): Violated by the code for mixed weights and for filters (C30_refuted_order, C30_refuted_mixed, C30_refuted_filter).
* **C31** (partial): C31_project_fixed is the full property for histograms without group axes.  With group axes the code is wrong unless the number of merged keys at every level is a power of two (C32): C31_project_partial proves the property under exactly that condition.
* **C32** (partial): Violated by the code: the pairwise sum is wrong unless the number of keys is a power of two, at least two.  C32_three_keys_refuted (a nested array of the wrong rank), C32_one_key_refuted (a list instead of an array), C32_no_keys_refuted (AssertionError).  C32_power_of_two_partial: right for 2^k keys; C32_right_iff_power_of_two: right exactly then.
* **C33** (partial): C33_total_unchanged holds for any content of fixed axes; C33_projections_compose_partial: projecting twice is projecting once, under the power-of-two condition of C32 for group axes.
* **C34** (partial): Accepted selections on a bin axis with a tolerance up to half a bin width: new axis, content, and equality with filling the kept rows, relative to the edge the threshold was rounded to. Larger tolerances are refuted under C37.
* **C35** (proved): Accepted selections on a split axis, any tolerance: new axis and content are those of the rows on the selected side of the matching edge, which is the threshold itself or within the tolerance of it.
* **C36** (partial): Accepted selections on an intbin axis with integer data and tolerance up to 1/2. Refuted: with a larger tolerance values outside the request are kept (C36_refuted_tolerance); infinite thresholds, which bin and split axes accept, raise AttributeError (C36_refuted_infinite). Non-integer data is excluded by a hypothesis.
* **C37** (partial): Rejections: bin, split and intbin reject a threshold that is no edge and a comparison that would cut a bin; a tolerance above half a bin width (also the default 1e-12, with narrower bins) makes every bin axis accept thresholds outside of it and gives it one bin too many (C37_large_tolerance_above, C37_large_tolerance_below; for intbin axes C36_large_tolerance_always). Acceptances: bin, split and intbin accept every edge (integer) with a fitting inequality if a bin is left. Refuted: on an intbin axis the values in the underflow bin and those in the overflow bin cannot be selected (C37_refuted_intbin_flow).
* **C38** (partial): `x != nan` keeps exactly the non-NaN rows. `x == nan` is refuted for every bin and split axis and every content (C38_eq_nan_refuted_always): the content is that of the NaN bin, but the axis keeps all the other bins, so that array and axis disagree in size.
* **C39** (partial): groupby: any number of comparisons joined by 'and', and two joined by 'or', select exactly the rows whose key satisfies them; every other form with 'or' is proved wrong (raises or drops terms). groupbin: one comparison with a number or NaN; an accepted comparison with an infinity keeps every number, finite or infinite, which is right for x >= -inf and x <= inf only (C39_groupbin_infinity); next to a group of NaN every comparison with a number is refused (C39_groupbin_nan_key_refuted_always). Inequalities between words and numbers raise TypeError (C39_inequality_refused).
* **C40** (partial): A selection on a cut axis keeps exactly the rows with the requested truth value. Cut expressions that are conjunctions cannot be named in a selection: see C99_cut_and_refuted.
* **C41** (proved): split, bin and (integer data) intbin axes: rebinning to any subset of the edges gives the content of the coarser axis; exactly which edge lists are accepted. numpy's indexing with a list of slices is taken to work as in the numpy of the time.
* **C42** (partial): Refuted: rebinby raises for every axis and factor (TypeError on bin, intbin, split). Nothing positive remains to be proved.
* **C43** (partial): Dropping all profiles leaves counts and squared weights exactly as if the profiles had never been there (proved for all histograms); dropping nothing changes nothing. Refuted: dropping some but not all profiles, or with a filter and no weight, takes wrong columns; exactly when the shape of the result is right is characterised.
* **C44** (partial): Proved for all programs of operations on shared axis objects: a histogram is disturbed exactly when a later operation renumbers one of its axes to another place; programs without such operations are safe. Refuted for project, copy, select on a cut and drop.
* **C45** (proved): Every cell of every table equals the statistics of the rows that land in it; ranges of means, variances and effective counts. Square roots are not taken in the model; histograms whose axis objects were renumbered (C44) are excluded.
* **C46** (partial): Refuted: the counts themselves sum to 1, not counts times widths; the exact value of the integral is proved, which is 1 when all finite bins have width 1. Refuted also for group axes (AttributeError) and split axes that are not last: wrong widths (C46_split_first_always; C46_widths_taken gives the widths that are used in every histogram without group axes) or ValueError (C46_split_refused, for every histogram with such an axis).
* **C47** (partial): Proved for histograms with a profile and with a weight if they have a filter: every cell is passing over total with the binomial error, in [0,1] for non-negative weights, complements add to 1. Refuted: without profiles IndexError always, with filter and no weight ValueError. The methods of computing errors are in C95.
* **C48** (partial): Proved for all arithmetic without division, for quotients by one factor or a number (class Py.safe, described by syntax), for sums and differences of any accepted expressions, and in general under the condition Py.Exact on products and quotients. Refuted: 2*(x+1) loses the constant (the exact defect of every division-free product is proved), (x+1)/2, x*y*z/(x*y), z/(x*x)*x. Runtime floats are rationals in the model; rows on which a part has no value (division by zero) are excluded.
* **C49** (partial): Proved for all arithmetic without division and for the class Py.safe with quotients and negative powers. Refuted: x/(x*x) raises IndexError; **, //, % and ^ on two constants always raise; x**0-like cancelled bases raise; a set as operand raises; ~ works for integer constants only.
* **C50** (partial): Proved for all nestings of comparisons, chains, in/not in, and/or/not over division-free operands (class condClass): accepted, and the truth value is kept on every row, NaN rows included, unless an odd number of not stands above an ordering comparison of a NaN. Refuted: not (x < y) on NaN; a function call as operand of and/or is rejected.
* **C51** (partial): Proved: closure of all single steps (swap + and *, swap < with >, permute and/or, inside any context) parses to the identical expression; any reordering of division-free sums of any length and of products without constant terms. Refuted: 2*y*(x+1) and 2*(x+1)*y parse to different expressions.
* **C52** (partial): Proved for every accepted expression of arithmetic, library functions, comparisons, and/or/not and positive boolean fields: the tree of calls computes and gives the value of the expression; end to end, the value the expression is written with. Refuted: a negated boolean field is computed as the field itself; 'x in {...}' is always false and 'not in' always true.
* **C53** (proved): For any set of goals, any iteration order of the sets and any library: the compiled instructions are executable, each exported value is the value of the quantity on its own, the first exception is one of a requested quantity, and each distinct call and field is computed exactly once. Subexpressions that are never reached are C54.
* **C54** (partial): Exact characterisation: a requested quantity is computed if and only if every function in it has an argument that is not a constant. Refuted for sqrt(2)*x and sqrt(x - x) in every order and with any other quantities; a histogram of sqrt(2)*x adds the number of rows to every bin.
* **C55** (proved): Whenever the text with the definitions written out is accepted, the text with definitions is parsed to the identical expression (C55_written_out), so every value agrees; C55_value_partial and C55_condition_partial connect it to the value of the text for the classes of C48 and C50. The converse acceptance fails: a definition that is a condition may be used as a number (C55_condition_as_number).
* **C56** (partial): Proved for names without wildcards, at any depth, in all books with distinct names on each level (every book that can be built, C57_built): what is found after assignment and deletion at, above, below and beside the path; when they succeed and that they raise KeyError otherwise, unless a SystematicsBook stands on the way. Refuted: a value assigned under a name with a wildcard is never found under it.
* **C57** (partial): Listing proved for all books that can be built: each path once, exactly those where something is. in and lookup agree for names without wildcards. Refuted: every name with a wildcard is in every book, the empty one included.
* **C58** (partial): Refuted: deletion with a wildcard empties every book of histograms whatever matches, and fails in the middle when there is a book inside. Remaining case proved: books of histograms that all match.
* **C59** (partial): Proved for all books without a SystematicsBook on the path, and for every other exception than its ValueError. Refuted: a value rejected by the checks of a SystematicsBook stays in the book, also if that is inside another.
* **C60** (partial): Any number of distinct histograms with any goals, whose arguments describe the same number of rows for each, no constants mixed with fields: the book's fill succeeds exactly if each histogram's own fill does, leaves each as its own fill would (whatever the order of computation) and no other histogram changed; what an earlier fill that raised left behind has no effect; with C81, each bin gets the sum over its rows. Refuted: a histogram listed twice (every bin gets the number of rows in addition), numbers next to arrays, arrays of different lengths, constants next to fields, empty books; a fill that raises in the middle leaves some histograms filled. Spark and copyonfill are not in this model (C64, C71).
* **C61** (partial): Any history of assignments, deletions (also with patterns) and fillings on any level, with or without exceptions, through the outermost book, without SystematicsBooks: the next fill of any book inside fills exactly the histograms it now has, as in C60. Refuted: book['in']['c'] = h is not seen by the outer book after its first fill, and every bin of h gets the number of rows; in general such a histogram is filled without its data.
* **C62** (partial): Books of any nesting, over histograms as objects. Sum: exactly when what is under common paths can be added, with names without wildcards and no SystematicsBook on the left, each path has the sum or the one that exists, both operands unchanged, every common bin the sum of the bins; if both have the same paths all histograms of the sum are new. *, *=: every histogram scaled, *= agrees with *, += agrees with + and changes only histograms of the left book (books without histograms in common or twice). Refuted: what only one operand has is shared with the result (both for + and +=), so scaling the sum scales the operand; a histogram listed twice is scaled twice by *=; names with wildcards are lost or raise; never-filled histograms cannot be multiplied; an in-place sum that raises has already changed what came before, in the books inside too (but loses no histogram: C62_iadd_keeps).
* **C63** (partial): Axes: compatible is the decision of equal binning, for all axes without NaN parameters; histograms: equality of the binnings of group and fixed axes in order; books without wildcard names: compatible is True exactly when paths and histograms correspond, and acceptance by the neighbour check of a SystematicsBook is equivalent to all entries corresponding to each other. Refuted: axes with NaN parameters; histograms after a selection (AttributeError); books of different shape (False in one direction, AttributeError in the other); names with wildcards.
* **C64** (partial): Refuted for templates that had been filled: Book.fill does not look at _copyonfill, so filling one sample through its book changes the other samples and the template. For templates never filled: whatever the program does before and after, filling any of the histograms of one sample together, or any operation on one of them, changes no histogram of another sample nor one from before, and each histogram has exactly the data given to its sample. For any template the samples are independent when their histograms are filled one by one with Hist.fill. The constructor succeeds for slash-free names without SystematicsBooks, with one book per sample of the template's shape and contents. Views are lists of histograms of a sample here (their making is C85).
* **C65** (partial): Refuted for every SystematicsBook that can be made and all data: fill raises AttributeError, because its _changed replaces the one that sets _fields. What remains: its histograms are filled with the ordinary book that contains it.
* **C66** (partial): Every histogram made by Hist(...) from axes of its own (any accepted arguments, no NaN parameters), with any content of its shape and any attachments: the restored histogram is the identical one, parsed expressions included, for any parser; and it is == if there is no NaN in it. Refuted: NaN content (not == to itself); axes taken from another histogram with other definitions (== but computes other quantities); what select leaves of an axis (cannot be pickled). Definitions are strings.
* **C67** (partial): Same histograms as C66: fromjson(tojson(h)) is the identical histogram, also through JSON text if the group keys are strings and the attachments survive text. Refuted: numeric group keys come back as strings, whatever way numbers are written; a group with a never-filled member and a null axis cannot be written.
* **C68** (partial): Books of any nesting and any of the six classes, with attachments, whose histograms are those of C66, with distinct slash-free names and SystematicsBooks that pass their own checks (as all that can be built): the restored book is the identical one, also through JSON text if the group keys are strings and the attachments survive text. Of entries with the same name the last counts. Refuted through text for numeric group keys; a histogram written on its own is not restored by GenericBook.fromjson.
* **C69** (partial): Equivalence for rational contents. With any content, definitions and attachments without NaN: two histograms are equal exactly if axes, parsed weight and filter, definitions, the content under all keys and the attachments at all places are the same (C69_means_partial), and so == is symmetric and transitive there. Violated: reading a never-filled histogram changes it (C69_refuted), NaN content (C69_refuted_nan).
* **C70** (partial): Model of which dict objects histograms, books and users share. Proved: attach, detach, has and get follow dictionary laws in every state; everything that is made comes with the right attachments and changes no other object; after any program without the sharing operations all objects are independent; attaching changes exactly the objects with the same dict. Refuted for every sum and product of histograms and every view of a book: what is attached to the result is attached to the operand; also for objects restored from a JSON object or by copy.copy, and for dicts given as attachment= together with systematic=.
* **C71** (partial): The index columns, sums and their addition to the content, over the values of the axis expressions. Any number of axes, profiles, rows and any order of the collected sums: if every needed flow bin exists (no values below an axis without underflow, no values above and no NaN on an axis with NaN bin but no overflow bin, nothing above an intbin axis, no inf), the groups exist already and weights are not NaN, every bin gets exactly its rows and reads as after filling with arrays. Refuted, in general: values below an axis without underflow are counted in the last bin; values above an axis without overflow are counted as NaN and NaN is lost; values above an intbin axis, NaN and infinities on it are counted as its maximum; inf is counted in the underflow bin; a new histogram with a group axis raises AttributeError (histbook.hist.COUNTTYPE); a NaN weight makes its bin NaN. Refuted by example: a filter without a weight is ignored, with a profile it raises ValueError. By reading: Book.fill with a DataFrame raises NameError (book.py:558 uses threading, which is not imported) if the book has a histogram. The translation of expressions into columns is C93. Null values: C133.
* **C72** (partial): Tables of histograms with any group and fixed axes, any columns, after any fills, where no value is infinite and the keys of each group axis are all texts or all numbers: as many rows as labels, each row has the numbers of exactly the data that its labels describe, and each entry is described by exactly one row. The order of the rows, for every export that succeeds (C72_order): groups strictly increase by the values of their keys, bins in the order of their axis, the last axis fastest. Refuted: infinite values are counted in rows whose label [x, inf) does not contain them; a groupbin axis with numbers and NaN cannot be exported (TypeError from sorted); fractions of any histogram without an axis besides groups and the given cuts have labels but no numbers (C72_refuted_only_cuts). Normalized tables (no group axes, split axes last): the count in each row is that of the data which its labels describe, over the width that these labels describe, over the sum of all such numbers; the other columns are as in any table. Fractions (with another axis): each row has the fractions of exactly the data that its labels describe, and each entry is described by exactly one row (C72_fraction_partial). Names of columns and levels: C112. Missing: NaN as key of groupby.
* **C73** (partial): All bin axes, flags and fills, also after projecting other axes away (group axes only where project is right, C41): every slot of the exported TH1 or TProfile, the flow slots included, has the sum of weights, squared error, mean and error of exactly the data in the interval that ROOT gives to this slot; absent flow bins are zero and NaN is left out. Everything but one bin or split axis raises (C73_only). Refuted: intbin axes and cuts raise AttributeError; so does projecting away a group axis with one group; split axes are exported with bins of equal widths.
* **C74** (partial): Proved for all intervals: comparisons never raise, transitivity, irreflexivity except for NaN, NaN last; the bins of a bin or split axis are published in strictly increasing order. Refuted: the NaN bin is less than itself; two intervals with the same low edge are each greater than the other; integer labels and intervals of one intbin axis cannot be compared.
* **C75** (proved): For any goals, iteration orders and library: precedence of keywords, which column each field gets, the number of rows, and that a missing field or arrays of unequal lengths raise (ValueError if the functions do not raise themselves). The text of the message, more-dimensional arrays and Spark are not modelled. Constants among the quantities: C80.
* **C76** (partial): All seven kinds, any accepted arguments, without NaN among the parameters: pack/unpack, copy and JSON (also as text) give the identical description, relabel changes only the label; the constructors agree with those of the filling model. Labels are strings (no lambdas). Refuted: NaN parameters are accepted and then the axis differs from itself. The null axis left by select has neither _pack nor tojson.
* **C77** (partial): Proved for arithmetic without // and ^, library functions and conditions without negated fields; every recognised function except round is in the library. Refuted for //, ^ and round, whatever the operands.
* **C78** (partial): Proved for computations in which no function that can write into an argument is called with one argument more than it has inputs. Refuted: one argument more, as log(x, y), is accepted and overwrites the array of y.
* **C79** (partial): Proved: mod and % are Python's %. fmod proved where the quotient is nonnegative or an integer, refuted everywhere else (too large by y); fmax/fmin proved on numbers, refuted when one operand is NaN. Proved against separate specifications: floor, ceil, trunc, rint, abs, sign, copysign, heaviside, max, min, where, and which of them give NaN for NaN. Simplified: no negative zero, no sign of NaN. Functions that are not rational are uninterpreted.
* **C80** (partial): Refuted: a constant together with a field makes every fill raise TypeError in Python 3, whatever the arguments; a constant alone counts one row however many are given. Proved: if all expressions are constants, fill counts exactly one row with these values.
* **C81** (partial): The whole way from the arguments through goals, call graph, execution and binning to the content, for any iteration order: equals filling with the rows of expression values, and each bin grows by the sum over its rows. Needs: expressions that vary and contain no function of constants only (C54, C80), that are computed (C52, C77); profile values that are not NaN; at least one row. Arrays are numbers (NaN included), or texts for a field that is grouped by (C81_text_*: then there is a group for each text, and each bin of it grows by the sum over the rows with this text); texts in other expressions and arrays of mixed values are not in this model.
* **C82** (proved): All books, the histograms being objects: copy() and cleared() succeed exactly if each SystematicsBook inside passes its own checks (the only books whose constructor refuses anything), and then have the same classes under the same paths and only new, distinct histograms with the copied (empty) values; the SystematicsBooks of the copy pass too; the original is as before; clear() changes exactly the histograms of the book. What a SystematicsBook asks of histograms may be any function of definition and settings. That Hist.copy shares no arrays is C27; copyonfill is in C64.
* **C83** (partial): Full statement for axes that the constructors of axes give (no NaN among their numbers) and any expression parser; the rejections likewise. Axes already parsed for another histogram are taken as they are (see C66_refuted_reused).
* **C84** (partial): pop and setdefault with names without wildcards, update with a dict of slash-free names. Refuted for every book with a histogram: what iterating gives cannot be used as key (lookup, assignment, deletion, pop, setdefault), popitem and update with another book raise TypeError; len counts the top level, iteration all levels.
* **C85** (proved): For all well-formed books (distinct slash-free names on each level, the invariant of C56/C57) and any matching function in place of fnmatch.fnmatchcase. The list of histograms that fill of the view goes through is the list of matching histograms; what filling a list of histograms does is C60.
* **C86** (partial): Any histogram as its constructors make it, after any fills, any chain of channels, any prefix and variable name, counts or profiles, with or without errors, normalized or not (normalized: split axes last); the records in any order (the order is that of the axes, but not stated), errors as squares (their square roots are not modelled), for any way to write numbers and keys. What is written for an integer bin has the same integers in it as the published bin (C86_written). Group axes that are added up need 1, 2, 4, 8, ... keys (C32). Refuted: a groupbin axis with NaN in the data raises TypeError; every normalized plot of a histogram with group axes raises AttributeError (C86_refuted_normalized); a normalized plot with a split axis before the last axis used raises ValueError, unless the numbers of intervals and bins happen to agree (C86_refuted_normalized_split). Missing: error bars of steps and areas without numbers; mixed keys (C29/C72).
* **C87** (partial): As in C86, for any bin, intbin or split axis whose first bin is wider than 1e-10 of the axis (bin axes with fewer than 10^10 bins always are); with errors, each record also has the centre of its bin. Numbers are exact here: with floats the last edge may differ from `high` so that the closing zero is missing. Refuted: edges [0, 1e-11, 1] show the value of the first bin all over the second one.
* **C88** (partial): Any histogram as its constructors make it, after any fills, any axes, any beside/below; records in any order, for any way to write numbers and keys; groupbin keys at the centre of their interval. C88_drawn_partial: the columns and ranges of the drawing. Refuted: an intbin axis as y raises AttributeError (vega.py 837, `may`); a split axis as x or y raises NotImplementedError when drawing (C88_refuted_split). Missing: group axes that are added up need 1, 2, 4, 8, ... keys (C32).
* **C89** (partial): Any histogram, fills and chain with at most one of overlay and stack, along bin, split, groupby and groupbin axes, and any plot that has records; the legend is in the order of the axis (reversed when stacked). Refuted: cut axes have legends 'False'/'True' but records 'fail'/'pass'; intbin axes have legends '3' but records '[2.5, 3.5)', with flow bins sorting them raises TypeError; plots without content raise AssertionError or KeyError; of overlay and stack together only the later is drawn. Not modelled: titles, scales, the stack's `aggregate`.
* **C90** (partial): Any tree of combinations that the constructors accept, any plots. Refuted: the layers of a plot with error bars that is placed beside or below another plot or in a grid are not limited to its records (vega.py 1042, no thislayer); the constructors accept plots that are already split although the code means to reject them (it looks for channels among plots). Titles, sizes and config: C109.
* **C91** (proved): Exactly: accepted iff the conditions hold, with the resulting plot given; a method called twice raises TypeError (C91_chain). Axes are given by number (what the user passes to `_singleaxis` is modelled as an axis or nothing).
* **C92** (partial): Along an axis of numbers for steps, areas, lines and markers, any chain without stack: bars at the centre of each finite bin around its value, and bars of no length at zero at both ends of outlines; the second value is the squared error (square roots are not modelled). Refuted: for bars and axes without numbers, the field is a text while the layer says quantitative; in stacks, bars reach the sum of the values below but error bars are around the value alone. Missing: what is missing in C86 and C87.
* **C93** (partial): Any accepted expression of arithmetic, comparisons other than in, logic, boolean fields that are not negated and the functions that Spark is given, with operands of the right type: it is computed on Spark on every row, with the value from arrays wherever no divisor is zero, no NaN is compared and floor, ceil, min, max, mod get arguments as described (also if the branch of where that is not taken, or a condition next to a false one, is not safe). Functions of analysis enter as parameters that must agree at the given arguments. Refuted: NaN is equal to itself and greater than all numbers on Spark; floor(NaN) is 0 and min skips NaN; mod differs exactly for opposite signs with a rest (C93_remainder_partial); quotients by zero are null; 18 functions raise NotImplementedError, among them fmod and with it the operator %; in is refused; arithmetic with boolean fields is refused; null from a quotient by zero makes every result null, except of logic (C93_refuted_null). C93_max_of_many, C93_min_of_many: max and min of any number of fields are those of all of them on Spark (from arrays a third argument is overwritten, C78_overwritten_two).
* **C94** (proved): Profile values, weights and contents are NaN, infinities or exact rationals, added and multiplied as IEEE 754 prescribes (no rounding, no overflow). The sum, what it depends on, when it is finite, order and batches, for all histograms made by the constructor and all data that can be filled (with profiles: every row in some bin, C18). C94_ieee states the contents with an independent description of IEEE sums and products. C94_agrees: with rational data the contents are those of the rational model.
* **C95** (partial): Over real numbers with square roots. For error='normal', any numbers of cuts and levels: each column of a bin has what its name says, and the error is between 0 and z/(2 sqrt n). Refuted: five of the seven documented methods raise NotImplementedError; 'wilson' gives the upper end of Wilson's interval (proved to be that) instead of an uncertainty, 1 if all entries pass; any other text as method shifts the columns; without scipy one sigma is taken for less than 0.8 (a factor sqrt 2 is missing); with weights the errors depend on the unit of the weights.
* **C96** (partial): Text is a list of tokens (blanks and the characters of single literals are not modelled), read back by a reader for Python's calls, tuples, dicts and literals. Proved for all made axes and all histograms made from axes of their own, with finite numbers and text definitions. Refuted: an infinite edge is shown as the unknown name inf; the axis that select leaves when one flow bin is left is shown as _nullaxis(), which is not exported; a histogram made with an axis of another histogram is shown like one of another quantity.
* **C97** (partial): Text is a list of tokens, read back by a precedence reader of Python's operators, comparisons, calls, sets and parentheses that is written apart from the model. Proved for all expressions in whose text no parentheses are missing, which includes everything written with + - *, division by products, powers of names and calls, and one comparison. Refuted: sums in denominators (x/(y+1) is shown as x/1+y), sums and negative numbers as bases of powers, products with remainders, conditions with and/or (shown as names of classes), the empty set.
* **C98** (partial): Proved for quantities that are a bare name; several axes give a TypeError. Refuted for every other quantity that depends on a field: the array is passed under the text of the whole expression (for example 2*x), which is not the name of a field, so that fill raises a ValueError for the missing field x. The key is a token text, so this rests on field names being single names.
* **C99** (partial): The whole of select after parsing: asconst, normalizeexpr, logical, the search over the axes with its exceptions, and the chain over an and. Proved by induction over the conditions with the invariant that content, axes and edges stay right. Asked of the rows: none lies between a constant and an edge within the tolerance of it (C37), fields used as conditions hold 0 or 1, and fields named like constants (pi, e) have that value. Ors of two conditions; longer ones are refuted in C39. Proved: without group axes any or is refused. Refuted: an and that is the expression of a cut axis, the negation of the condition of a cut axis, fields named e or pi, and the exceptions for intbin axes: every refused equality with an integer raises AttributeError, and every refused comparison with another number in the range raises it if an odd number of axes follow (C99_refuted_intbin_error). With bin axes (with ordinary bins) and split axes only, every refused comparison of their quantities with a number raises ValueError (C99_value_error). Not treated: strings, infinite and NaN constants.
* **C100** (partial): Proved for any number of batches: exactly the keys of this axis in the batches in which each earlier group axis has some key, so exactly the keys in the data if no row is left out by an earlier axis; the axis may be given as an object, too (C100_object). Refuted: keys of rows that an earlier groupbin axis leaves out (NaN with nanflow=False) are missing; a histogram that was never filled raises an AttributeError; with no group axes a NameError (UnboundLocalError) replaces the IndexError.
* **C101** (partial): Refuted for all calls: the method is defined without `self`, so that h.togroup(...) raises a TypeError and Hist.togroup(...) a NameError. Nothing is left to prove.
* **C102** (partial): Lookup by quantity and by class is proved for all lists of axes. Positions count in the order group axes, fixed axes, profiles; refuted for other orders of the constructor arguments. A split axis is not found by the list of edges with which it was made, because its edges are a tuple. Null axes are not modelled.
* **C103** (partial): Proved for all books whose names are distinct and without slash, which are those that can be built (C57_built). Refuted: the documented default recursive=True.
* **C104** (partial): Doubles are rationals rounded to nearest, ties to even (C104_rounding), without overflow to infinity and without signed zeros. Proved for numbers further from all published edges than 2^-48 of the largest number involved. Refuted at the edges: 0.29 on bin("x", 100, 0, 1) is in the bin before the one that begins with it, 49 on bin("x", 1, 0, 49) is not in the overflow bin, published bins can overlap or leave a gap at `high`, and -1e-300 on bin("x", 1, 0, 1e300) is in the first bin. The split axis only compares, so that C03 holds for doubles as it stands.
* **C105** (partial): Refuted at the ends of intervals: 0.3 on groupbin("x", 0.1) gets an interval that begins above 0.3; 2.01 on groupbin("x", 0.01) gets the interval that ends there.
* **C106** (partial): For histograms with one bin axis; groups do the same with their own rows. Without weights, proved for any number of entries: a bin holds the number of its values or 2^53, whichever is smaller, so a count is refuted exactly beyond 2^53 (C106_counts_refuted_always). Refuted: the order of weighted entries and the way of merging change the last bit.
* **C107** (partial): Proved within nine roundings, with at most three corrections. Refuted: binwidth of bin("x", 10, 0, 10) is 0.9999999999999999 although its bins are 1 wide.
* **C108** (partial): Proved for tolerances that exceed the distance from the edge by 2^-48 of the largest number involved, and for data further from the edges than 2^-47 of it. Refuted with the default tolerance 1e-12, which does not grow with the numbers: the published edge 31000.000000000004 of bin("x", 60, 0, 60000) is refused.
* **C109** (partial): Sizes and titles proved for all combinations; in a combination they are repeated on every layer of a plot with error bars. Settings proved where combinations inside other combinations have none of their own; refuted otherwise: the `config` of an inner combination is silently dropped.
* **C110** (partial): Proved what every channel gets, for all chains and options. Refuted: a `colorscale` discards the order of the colours of a stack or overlay, and `shapescale` never has an effect since no plot has shapes.
* **C111** (partial): Proved for chains whose last channel has a single axis and no options, with the restrictions of C96; an order of a stack is a tuple of texts. Refuted for every option of the last channel and for every heatmap: the arguments are joined without commas.
* **C112** (partial): Proved for any histogram after any fills wherever the names are different; errors are squared as in C45 and C47 (square roots are not modelled); the texts of expressions and of confidence levels are parameters. Refuted: the same profile asked for twice raises ValueError if there is content (C112_refuted_twice), so do two confidence levels that agree to six digits (C112_refuted_digits); in the frame of a histogram with group axes that is not filled, only the first level has a name (C112_refuted_levels).
* **C113** (partial): Proved for any accepted expression whose sums, after like terms are collected, have at most one boolean term on each side and are not one boolean minus another (a decidable condition on the parsed expression): the value is the one with 0 and 1, and the result is boolean exactly for fields, comparisons, isnan and the like and their products; which functions give booleans is stated separately as NumPy documents them (C113_functions); expressions without booleans are computed as in C52. Refuted: a sum of any two or more different boolean fields is computed to whether any is set (C113_refuted_flags), any difference of two raises TypeError (C113_refuted_difference), the result depends on the names of the fields (C113_refuted_names), and a flag plus its square is the flag (C113_refuted_square). Functions other than add, subtract and multiply see booleans as 0 and 1 (16-bit results and refusals of single functions are not modelled).
* **C114** (partial): Proved: when the value of the written arithmetic or condition depends on its unsupported parts (with the same value for all of them) on some row, the histogram is refused with an AssertionError (C114_refused_partial for sums, differences, functions and quotients as in C48, C114_condition_partial for conditions as in C50); on its own or as an argument of a function an unsupported part is always refused (C114_argument). Refuted: any two unsupported parts count as the same, so that x[0] - x[1] is accepted as 0, x[0]/x[1] as 1, and x[0] - x[1] vanishes from any sum (C114_refuted_difference, C114_refuted_cancel); keyword arguments are never looked at (C114_refuted_keywords). Which exception comes first when two unsupported parts are multiplied is simplified.
* **C115** (partial): Proved for selections on bin, intbin and split axes with a number, on bin and split axes with NaN and infinities, for rebinning, for dropping all profiles, and for projections up to the later rows without a bin on a removed axis. Refuted in general for selections on cut, groupby and groupbin axes: later rows that fail the condition are counted after all (exactly those). Refuted with profiles: filling a selection with a row that fails raises. Not covered: tolerances larger than half a bin, on groupbin axes thresholds that are no edges.
* **C116** (partial): Proved for selections on axes that are not group axes, for rebin and drop (object by object), and for project given that numpy.sum and + make new arrays. Refuted for selections on group axes: the selection puts the same arrays into a new dict (proj.py:469), so the original and the selection show the same numbers in every selected group after any sequence of fills of any histograms (unless the original was made with copyonfill).
* **C117** (partial): Format g is modelled with all its cases (six digits, ties to even, exponents, trailing zeros), and read back by a separate reader of decimal notation. Proved: the number read from a label is within 5 millionths of the edge, for all numbers, and in order; two edges are written alike exactly if they agree in six digits; a whole label is read as the interval with both edges in order and the same ends closed (C117_label), which has every number of its bin in it (C117_contains); all labels of an axis are different if its bins are wider than 1/100000 of its largest edge (always for fewer than 100000 bins from zero). Refuted otherwise: of any four bins within one unit of the sixth digit two have the same label; four hours at a time stamp of 1.5e9 drawn beside each other are put into three pictures. Numbers are exact, negative zero is not modelled; keys of groupby axes are written by a parameter.
* **C118** (partial): Every operation is rounded to nearest even (no overflow). Proved for histograms without weights: what is computed per bin for any batches; the mean is within 2(n+1)/2^53 of the mean size; the square of the error is within (6n+16)/2^53 of the mean square over n; NaN occurs only if the variance is less than (6n+14)/2^53 of the mean square; exact for one entry and for equal integers. Refuted otherwise: three entries of 0.1 give an error of NaN and a mean above 0.1; 100000000 and 100000001 give the error zero. With the root taken (C134) the square is within (6n+19)/2^53 of it (C118_root_partial). With weights (values zero or at least 2^-100 in size, weights between 2^-100 and 2^100, at most 2^30 entries): what the table computes per bin for any batches (C118_weighted_table), the mean within (5n+4)/2^53 of the weighted mean size, the effective number of entries within (7n+6)/2^53 of itself, the square of the error within (24n+27)/2^53 of the mean square over that number (C118_weighted_*_partial). Weights of one give exactly what no weights give up to 94906265 entries; 94906267 of them count as a little less (C118_weighted_refuted_ones). With weights and profiles, filling raises if a row is in no bin (C118_weighted_refuted_outside).
* **C119** (proved): Every operation is rounded to nearest even, one batch, sums from left to right (numpy sums eight or more neighbouring cells, i.e. three or more cuts, in a blocked order), no overflow; the error is that of the method normal, before the root. With a negative weight the claim fails: a fraction of 2 with an error of NaN (C119_refuted_negative).
* **C120** (partial): Over an abstract Python (objects, globals of expr.py, attributes). Proved: exactly the names of the table are accepted without a module, each meaning itself, any other is an ExpressionError; every reference to a listed function of math or NumPy is accepted and applies the function of NumPy that it is by the documentations (a separate table), except fmod and round. Refuted: fmod in all three spellings gives the rest of division rounded down; a function after a dot that is not listed is an AttributeError; math's own names such as acos are refused without the module (C120_bare_math, by design of the table).
* **C121** (partial): Every operation is rounded to nearest even, one axis. Proved for values that are further from every published edge than 2^-48 of the largest number involved. False on the edges: bin("x", 100, 0, 1) rebinned to [0, 0.29, 1] has the value 0.29 in the first bin, split("x", [0, 0.29, 1]) in the second (C121_refuted_value); and the edge 0.3 of bin("x", 30, 0, 3) is refused (C121_refuted_edge). With weights each new bin has the sum of the weights of its values up to (1+2^-53)^(n+m)-1 of the sum of their sizes (C121_weights_partial). Missing: several axes in double precision.
* **C122** (proved): Every addition is rounded to nearest even, no overflow, one axis. Addition of weighted histograms is not associative (C122_refuted_assoc), and with weights of both signs the rounding can be all of the content (C122_refuted_cancel); the claim therefore bounds the difference by the sizes of the weights.
* **C123** (partial): Proved for expressions in which all numbers have one type and of two sets one contains the other: then == is identity, < is a strict total order, and sorting does not depend on the writing. False otherwise: 1 == 1.0 while 1.0 < 1 (C123_refuted_equal_less), so that x > 1, y > 1.0, z > 0 form a cycle (C123_refuted_cycle); atan2(1, a)*atan2(1.0, b)*atan2(0, c) and atan2(1.0, b)*atan2(0, c)*atan2(1, a) are parsed into different expressions (C123_refuted_product); the order of x in {1} or x in {2} is that in which Python goes through a set (C123_refuted_sets). C51 has one type of number and does not see this. Sorting is that of CPython for less than 64 elements; products are of single factors.
* **C124** (partial): Proved for sums, differences and products of integer columns: the computed value is the written integer modulo the type, hence exact if it fits, provided that the collected constants of the expression fit the type (C124_wraps_partial, C124_exact_partial). intbin is right if the offset and the shifted value belong to the type and int32 (C124_intbin_partial). False otherwise: x/z*y is computed as (x*y)/z, which overflows (C124_refuted_quotient); 100*w + 100*w collects to 200, which does not fit one byte, and x - 5 becomes the addition of -5, which unsigned columns refuse (C124_refuted_collected, C124_refuted_unsigned; NumPy 2, while NumPy 1 takes a wider type); every value of a signed column whose shift overflows is counted as underflow or not at all (C124_intbin_overflow), e.g. 127 in intbin(0, 200) (C124_refuted_intbin); unsigned columns raise for an intbin starting above its first bin's shift (C124_refuted_unsigned_axis). All columns have one type; products with two constant terms (C48) and powers are left out.
* **C125** (partial): Proved for floating point columns (C125_float_partial), for integer columns when nothing overflows (C125_fits_partial), and for all columns when no number is written with both types (C125_one_type_partial). False for integer columns: for the byte 127, x + 1.0 gives 128 alone and -128 in a pass in which x + 1 comes first (C125_refuted, C125_refuted_inner, C125_first); goals are kept in sets, so which one comes first can depend on the hash seed. Boolean, text, tuple and set constants are left out; the pass itself is C53.
* **C126** (partial): Proved before Python 3.8 for every refused expression (C126_message_partial) and for every syntax tree of the modelled kinds (C126_text_partial, C126_distinct_partial), by reading the text with the grammar and the precedences of Python; since Python 3.8 for parts without literals (C126_names_partial, C126_modern_partial); what is accepted and the other exceptions do not depend on the version (C126_same_partial). False since Python 3.8 where the quoted part has a literal: the unparser has no method for ast.Constant, and the user gets an AttributeError in place of the ExpressionError (C126_refuted_literal; setup.py names 2.7 to 3.7 only); and for lambdas with positional-only parameters, which are left out of the text (C126_refuted_lambda). Missing: comprehensions, starred elements, slices, f-strings, default values of lambdas; the spelling of tokens is not modelled.
* **C127** (partial): Proved for selections of bins (C127_select, C127_cut), of groups (C127_groups, both directions), for rebin (C127_rebin), drop (C127_drop), for multiples (C127_multiples) and for projections to fixed axes (C127_project_fixed); for projections of group axes if each content has 2, 4, 8, ... keys on them (C127_project_partial, C127_project_multiple_partial). False for projections of group axes in general, because of the defect of C32: two histograms with two groups each are projected correctly and their sum with three groups is not (C127_refuted_project). Exact arithmetic.
* **C128** (partial): Proved for select and rebin on different fixed axes in all combinations (C128_select_select, C128_select_rebin, C128_rebin_rebin), for drop (C128_drop_select), for a selection of groups with select or rebin on a fixed axis, exceptions included (C128_group_select, C128_group_rebin), for two selections of groups that both work by themselves (C128_groups_partial), and for the two ends of a range on a bin axis, with the result spelled out (C128_range). False if one of two selections of groups raises an exception by itself (C128_refuted_groups), and for two selections on one bin axis if the first leaves only the overflow: every further one raises ZeroDivisionError (C128_refuted_flow). A projection and a selection or rebin on a fixed axis that is kept can be exchanged if all group axes are kept (C128_project_fixed), and otherwise if the group axes projected away have 2, 4, 8, ... keys (C128_project_select_partial, C128_project_rebin_partial). The same holds for a projection and a selection of groups on a group axis that is kept (C128_project_group_partial, C128_project_group_fixed). A selection or rebin on a kept fixed axis is refused before and after the projection with the same exception (C128_project_refused). A selection of groups on a kept axis is refused if and only if it is refused after the projection (C128_project_group_refused_partial; not for keys without bins, and without the kind of exception). Exact arithmetic.
* **C129** (partial): Proved for the items of one axis: fixed axes (C129_fixed, with the rejection) and group axes (C129_group: all groups once in the order of their keys, with the interval of each, and exactly which dicts raise TypeError); and for nested loops over the tables of all histograms whose values on groupbin axes are finite and whose groupby keys can be compared (C129_table_partial; infinite values and NaN on other axes included, unlike C72). False for NaN on groupbin axes, whose key is a text that no number can be added to (C129_refuted_nan), and for infinite values on groupbin axes, whose label is the empty interval [inf, inf) (C129_refuted_infinite). Normalized tables as far as C46 allows them (C129_normalized_partial: no group axes, split axes last).
* **C130** (partial): Proved for bin, split and intbin axes if both selections are accepted (C130_fixed_partial; the tolerance is at most half a bin), for bin and split axes if only one is (C130_refused_partial: the other raises ValueError and the first has all the entries), for cut axes (C130_cut) and for a comparison of a group axis (C130_groups). False for intbin axes: `n >= min` is accepted, `n < min` is refused, and the entries of the underflow bin are in neither, whatever the content, and likewise above (C130_refuted_intbin_below, C130_refuted_intbin_above). Inequalities with NaN are false together with their opposites (C130_refuted_nan).
* **C131** (partial): Proved for split axes (C131_split), for bin axes if the selection left an ordinary bin (C131_bin_partial; the tolerance is at most half a bin), for `!= nan` (C131_not_nan), for `<=` and `>=` on intbin axes (C131_intbin_partial), and for all conditions about group axes (C131_groups). False for `<` and `>` on intbin axes, where the second selection always raises ValueError (C131_refuted_intbin); for selections on bin axes that leave a flow bin only, where it raises ZeroDivisionError (C131_refuted_flow); and for cut axes, which are removed (C131_refuted_cut).
* **C132** (proved): C132_steps, C132_same and C132_total, each for all rebinnable axes (bin, intbin and split; a split axis with sorted edges, as its constructor makes them) and all contents. C132_lost shows that the condition in C132_total is needed: an axis without an underflow bin loses what lies below the new first edge.
* **C133** (partial): Proved for nulls on bin, split and cut axes and for missing weights next to others that are given, with all combinations and any order of the results (C133_fill_partial; conditions as in C71). False for profiles: a missing value counts as zero in the mean (C133_refuted_profile; in general by C133_fill_partial). False for intbin axes, where a missing value is counted as the largest integer (C133_refuted_integer), for group axes, where filling raises (C133_refuted_groups: always; AttributeError in the example), and for bins in which all weights are missing, where filling raises (C133_refuted_weights; TypeError in the example), or all values of a profiled quantity (C133_refuted_profile_bin). Nulls inside expressions are not modelled: the values of the axes are given as in C71.
* **C134** (partial): numpy.sqrt is modelled as the root to 53 bits, rounded to nearest, and proved to be the nearest double (C134_root; the definition of nearest does not mention the model). Without weights the table shows the number and the nearest double to its root for up to 2^53 rows in any batches (C134_counts, C134_more). With weights it is the nearest double to the root of the rounded sum of rounded squares for all batches (C134_table), whose square is within (2n+5)/2^53 of the exact sum of squares for weights between 2^-200 and 2^200 or zero and up to 2^30 entries (C134_weights_partial); further rows never make it smaller, whatever the weights (C134_grows), and the weight 1 is like no weight (C134_ones). False for small weights: two entries of weight 2^-600 have the error zero (C134_refuted_small). Overflow of the sums is not modelled.
* **C135** (partial): Violated by the code with two group axes (C135_refuted) and with one group axis if a is itself a sum of a weighted and an unweighted histogram (C135_refuted_after_sum): groups before the one that raises have been added. With at most one group axis, any other axes, profiles, weights and fills, nothing has changed (C135_unchanged_partial); with any number of group axes the groups that a had keep their numbers, and what has been added are groups of b that a had not (C135_own_groups_partial); with the same columns nothing raises (C135_same_columns). That the axes are the same is by typing; else TypeError is raised before anything is added.

## 5. Axioms per theorem

From `#print axioms` on every theorem listed in MANIFEST.json.

Axioms: none

`C76_null`, `C101_togroup_refuted`

Axioms: propext

`C56_refuted_wildcard`, `C57_refuted_wildcard`, `C62_iadd_keeps`, `C63_axis_partial`, `C63_refuted_hist`, `C63_refuted_wildcard_checked`, `C70_refuted`, `C74_refuted_irreflexive`, `C74_refuted_mixed`, `C77_functions`, `C78_unchanged_partial`, `C90_refuted_split`, `C93_functions`, `C103_options`, `C109_unknown`, `C110_heatmap_colors`, `C110_refuted_order`, `C120_refuted_table`, `C120_refuted_unknown`

Axioms: propext, Classical.choice, Quot.sound

`C01_bin_fill_matches_keys`, `C01_bin_nan`, `C02_refuted`, `C02_pinf_is_underflow`, `C02_huge_is_underflow`, `C02_partial`, `C03_split_fill_matches_keys`, `C04_intbin_ints_partial`, `C04_intbin_floats_partial`, `C04_refuted_truncates`, `C05_groupbin_interval_contains`, `C05_groupbin_same_key_iff`, `C05_groupbin_special`, `C05_refuted_nan_interval`, `C06_bin_keys_partition`, `C06_split_keys_partition`, `C06_intbin_keys_partition`, `C07_bin_split_same`, `C07_intbin_bin_same`, `C08_flat_index`, `C09_any_rounding_in_range`, `C09_any_rounding_monotone`, `C10_refuted`, `C10_refuted_raises`, `C10_every_value_same_bin`, `C10_partial`, `C11_content_is_sum`, `C11_fill_adds`, `C12_batches_partial`, `C12_refuted`, `C13_order_irrelevant`, `C14_conservation`, `C14_all_flow_on`, `C14_every_row_counted`, `C15_nan_weight_ignored_partial`, `Flt.C15_nan_weight_partial`, `Flt.C15_refuted_in_general`, `Flt.C15_refuted`, `C16_filter_partial`, `C16_refuted`, `Flt.C16_numbers_partial`, `Flt.C16_refuted_profile`, `C17_absent_partial`, `C17_groups_kept`, `C17_no_new_groups`, `C17_no_groups_partial`, `C17_refuted`, `C18_refuted`, `C18_always_raises`, `C18_partial`, `C19_signs_and_bounds`, `C20_one_group_axis_partial`, `C20_groups_exactly`, `C20_refuted`, `C21_sum_is_fill_of_both`, `C22_comm`, `C22_assoc`, `C22_zero`, `C23_iadd_is_add`, `C23_right_operand_partial`, `C23_iadd_value`, `C23_refuted`, `C24_sum_independent_partial`, `C24_histograms_are_values_partial`, `C24_refuted`, `C25_linear_partial`, `C25_refuted_unfilled`, `C25_distributes_partial`, `C25_repeated_sum_partial`, `C26_scaled_counts_partial`, `C26_refuted`, `C26_right_iff`, `C27_makers_change_nothing`, `C27_copy_equal`, `C27_copy_independent`, `C28_fill_copy_partial`, `C28_refuted_book`, `C28_refuted_original`, `C29_same_columns_partial`, `C29_raises_partial`, `C29_refuted`, `C29_refuted_groups`, `C29_refuted_always`, `C29_refuted_counts`, `C29_common_partial`, `C29_refuted_apart`, `C29_inplace_partial`, `C30_refused`, `C31_project_partial`, `C31_project_fixed`, `C32_power_of_two_partial`, `C32_right_iff_power_of_two`, `C32_three_keys_refuted`, `C32_one_key_refuted`, `C32_no_keys_refuted`, `C33_projections_compose_partial`, `C33_total_unchanged`, `C34_select_bin_partial`, `C35_select_split`, `C36_select_intbin_partial`, `C36_refuted_infinite`, `C36_refuted_tolerance`, `C36_large_tolerance_always`, `C37_tolerance_harmless`, `C37_bin_rejects`, `C37_split_rejects`, `C37_intbin_rejects_partial`, `C37_cut_rejects`, `C37_bin_accepts`, `C37_intbin_accepts`, `C37_refuted_intbin_flow`, `C37_split_accepts`, `C37_large_tolerance_refuted`, `C37_large_tolerance_above`, `C37_large_tolerance_below`, `C38_not_nan_partial`, `C38_eq_nan_refuted`, `C38_eq_nan_refuted_always`, `C39_groupbin_infinity`, `C39_groupbin_infinity_refused`, `C39_groupbin_at_most_infinity`, `C39_groupbin_nan_key_refuted_always`, `C39_and_groupby`, `C39_or_two_groupby_partial`, `C39_and_accepts`, `C39_inequality_refused`, `C39_or_three_refuted`, `C39_or_and_refuted`, `C39_and_or_refuted`, `C39_groupbin`, `C39_groupbin_nan`, `C39_groupbin_inf_refuted`, `C39_groupbin_nan_key_refuted`, `C40_select_cut_partial`, `C41_rebin_split`, `C41_rebin_bin`, `C41_rebin_intbin`, `C41_rebin_accepts`, `C42_rebinby_refuted`, `C42_rebinby_typeError`, `C43_drop_all_partial`, `C43_drop_shape`, `C43_dropped_not_addable`, `C43_drop_one_refuted`, `C43_drop_first_refuted`, `C43_drop_filter_refuted`, `C44_safe_programs_partial`, `C44_new_histogram`, `C44_disturbed_iff`, `C44_project_refuted`, `C44_copy_refuted`, `C44_select_cut_refuted`, `C44_drop_refuted`, `C45_table`, `C45_ranges`, `C45_no_such_profile`, `C46_split_refused`, `C46_split_first_always`, `C46_widths_taken`, `C46_widths_partial`, `C46_normalized`, `C46_uniform_partial`, `C46_group_refuted`, `C46_split_first_refuted`, `C46_normalized_refuted`, `C47_fraction_partial`, `C47_range`, `C47_no_profile_refuted`, `C47_filter_refuted`, `C48_value_partial`, `C48_divFree`, `C48_product_defect`, `C48_constant_lost`, `C48_constant_lost_quotient`, `C48_wrong_factor_cancelled`, `C48_safe_partial`, `C48_sum`, `C48_numerator_lost`, `C49_parses_partial`, `C49_index_error`, `C49_constant_power`, `C49_set_operand`, `C49_invert`, `C49_bitwise`, `C49_cancelled_base`, `C49_safe_partial`, `C50_truth_partial`, `C50_not_less_on_nan`, `C50_parses`, `C50_call_operand`, `C51_variant_partial`, `C51_lookup`, `C51_sum`, `C51_product`, `C51_product_order`, `C52_tree_partial`, `C52_written_partial`, `C52_condition_partial`, `C52_negated_field`, `C52_negated_field_and`, `C52_in_always_false`, `C53_one_pass`, `C53_order_irrelevant`, `C53_shared_once`, `C54_refuted_histogram`, `C54_refuted_weight`, `C54_computed_iff`, `C54_refuted`, `C55_written_out`, `C55_value_partial`, `C55_condition_partial`, `C55_condition_as_number`, `C56_del_partial`, `C56_refuted`, `C57_refuted`, `C58_refuted`, `C58_refuted_nested`, `C59_refuted`, `C59_refuted_systematic`, `C59_refuted_inside`, `C60_fill_partial`, `C60_raises_partial`, `C60_stale_partial`, `C60_content_partial`, `C60_refuted_twice`, `C60_refuted_number`, `C60_refuted_lengths`, `C60_refuted_constant`, `C60_refuted_empty`, `C60_raises_hist`, `C60_refuted_middle`, `C61_partial`, `C61_refuted_inside`, `C61_refuted_replaced`, `C61_refuted_stale`, `C62_sum_partial`, `C62_sum_raises`, `C62_separate_partial`, `C62_refuted_shared`, `C62_product_partial`, `C62_imul_agrees_partial`, `C62_iadd_partial`, `C62_iadd_agrees_partial`, `C62_agree_partial`, `C62_bins_partial`, `C62_refuted_operands`, `C62_refuted_iadd_shared`, `C62_refuted_twice`, `C62_refuted_wildcards`, `C62_refuted_unfilled`, `C62_refuted_failed`, `C62_product_checked_partial`, `C63_hist_partial`, `C63_neighbours_partial`, `C63_neighbours_complete`, `C63_books_partial`, `C63_refuted_symmetry`, `C64_made_partial`, `C64_independent_partial`, `C64_values_partial`, `C64_one_by_one_partial`, `C64_refuted`, `C64_mixed_refused`, `C65_refuted`, `C65_inside_partial`, `C66_restored_partial`, `C66_equal`, `C66_refuted_nan`, `C66_refuted_reused`, `C67_restored_partial`, `C67_refuted_keys`, `C68_restored_partial`, `C68_text_partial`, `C68_repeated`, `C68_refuted_keys`, `C69_eq_partial`, `C69_means_partial`, `C69_order_partial`, `C71_axis_partial`, `C71_refuted_under`, `C71_refuted_over`, `C71_refuted_nan`, `C71_refuted_integer`, `C71_refuted_integer_nan`, `C71_refuted_infinity`, `C71_fill_partial`, `C71_refuted_groups`, `C71_refuted_filter`, `C71_refuted_filter_profile`, `C71_refuted_nan_weight`, `C72_table_partial`, `C72_refuted_infinite`, `C72_refuted_sorted`, `C72_refuted_fraction`, `C72_refused`, `C72_fraction_partial`, `C72_refuted_only_cuts`, `C72_normalized_partial`, `C72_order`, `C73_counts_partial`, `C73_profile_partial`, `C73_only`, `C73_refuted_integer`, `C73_refuted_one_group`, `C73_refuted_split`, `C73_refused`, `C74_refuted_same_low`, `C74_order_partial`, `C74_axis_partial`, `C74_comparisons_partial`, `C75_columns`, `C75_reported`, `C76_restored_partial`, `C76_constructors`, `C77_computes_partial`, `C77_floordiv`, `C77_xor`, `C77_round`, `C78_accepted`, `C79_mod`, `C79_percent`, `C79_fmod_partial`, `C79_fmod_wrong`, `C79_fmax_partial`, `C79_fmax_nan`, `C79_rounding`, `C79_signs`, `C79_nan`, `C80_refuted_alone`, `C80_refuted_weighted`, `C80_one_row_partial`, `C80_refuted_mixed`, `C81_rows_partial`, `C81_content_partial`, `C81_weights`, `C81_written_partial`, `C81_text_rows_partial`, `C81_text_content_partial`, `C82_copies`, `C82_copy`, `C82_cleared`, `C83_made_partial`, `C83_raises`, `C84_pop_partial`, `C84_refuted_popitem`, `C84_refuted_update`, `C84_refuted_length`, `C85_view`, `C85_fills`, `C86_refuted_normalized_split`, `C86_texts_partial`, `C86_centres_partial`, `C86_written`, `C86_refuted_normalized`, `C86_refuted_nan`, `C87_outline_partial`, `C87_refuted_narrow`, `C88_records_partial`, `C88_drawn_partial`, `C88_refuted_intbin`, `C88_refuted_split`, `C89_legend_partial`, `C89_refuted_cut`, `C89_refuted_intbin`, `C89_refuted_intflow`, `C89_refuted_empty`, `C89_refuted_both`, `C90_combination_partial`, `C90_arrangement`, `C90_grid`, `C90_raises`, `C90_refuted_error`, `C92_errors_partial`, `C92_refuted_text`, `C92_refuted_stack`, `C93_remainder_partial`, `C93_refuted_nan_always`, `C93_refuted_nan_floor_always`, `C93_refuted_zero_always`, `C93_refuted_percent_always`, `C93_refuted_flag_always`, `C93_accepts_partial`, `C93_same_partial`, `C93_written_partial`, `C93_refuted_nan`, `C93_refuted_nan_functions`, `C93_refuted_remainder`, `C93_refuted_zero`, `C93_refuted_null`, `C93_refuted_missing`, `C93_refuted_percent`, `C93_refuted_in`, `C93_refuted_flag`, `C93_max_of_many`, `C93_min_of_many`, `Flt.C94_sum`, `Flt.C94_own_bin`, `Flt.C94_own_profile`, `Flt.C94_finite`, `Flt.C94_batches`, `Flt.C94_agrees`, `Flt.C94_ieee`, `C95_normal_partial`, `C95_normal_bounds`, `C95_refuted_methods`, `C95_refuted_wilson_upper`, `C95_refuted_wilson`, `C95_refuted_unknown`, `C95_refuted_sigmas`, `C95_refuted_units`, `C96_axis_partial`, `C96_hist_partial`, `C96_told_apart_partial`, `C97_value_partial`, `C97_written_partial`, `C97_as_written_partial`, `C97_denominator`, `C97_base`, `C97_square`, `C97_remainder`, `C97_sign`, `C97_empty_set`, `C98_refuted`, `C99_constant_names`, `C99_constants`, `C99_refuted_intbin_error`, `C99_value_error`, `C99_select_partial`, `C99_written_partial`, `C99_or_refused`, `C99_cut_and_refuted`, `C99_cut_negated_refuted`, `C99_name_is_constant_refuted`, `C99_intbin_error_refuted`, `C99_nearest_edge`, `C99_nearest_axis`, `C100_groupkeys_exactly`, `C100_groupkeys_partial`, `C100_left_out_refuted`, `C100_never_filled_refuted`, `C100_refused`, `C100_object`, `C100_object_refused`, `C102_all_listed`, `C102_by_expression`, `C102_by_class`, `C102_arguments`, `C102_position_refuted`, `C102_position_partial`, `C102_edges_list_refuted`, `C102_of_histogram`, `C103_default_refuted`, `C104_rounding`, `C104_right_partial`, `C104_order`, `C104_low`, `C104_below_partial`, `C104_edges`, `C104_special`, `C104_no_width`, `C104_edge_refuted`, `C104_high_refuted`, `C104_gap_refuted`, `C104_below_refuted`, `C105_order`, `C105_same_key_partial`, `C105_interval_partial`, `C105_refuted_nan_interval`, `C105_special`, `C105_interval_refuted`, `C106_counts_saturate`, `C106_counts_refuted_always`, `C106_batches`, `C106_counts_partial`, `C106_merge_counts`, `C106_weights_partial`, `C106_integer_weights`, `C106_counts_refuted`, `C106_order_refuted`, `C107_binwidth_partial`, `C107_binwidth_refuted`, `C107_no_bins`, `C108_accepts_partial`, `C108_refuses_partial`, `C108_below_partial`, `C108_from_partial`, `C108_edge_refuted`, `C109_alone`, `C109_combined`, `C109_settings_partial`, `C110_one_partial`, `C110_heatmap`, `C110_once`, `C110_refuted_shape`, `C111_chain_partial`, `C111_options_shown`, `C112_table_partial`, `C112_fraction_partial`, `C112_levels_partial`, `C112_refuted_levels`, `C112_refuted_twice`, `C112_refuted_digits`, `C113_fair_partial`, `C113_functions`, `C113_written_partial`, `C113_numeric_partial`, `C113_refuted_flags`, `C113_refuted_difference`, `C113_refuted_names`, `C113_refuted_square`, `C114_refused_partial`, `C114_condition_partial`, `C114_argument`, `C114_refuted_difference`, `C114_refuted_cancel`, `C114_refuted_keywords`, `C115_select_partial`, `C115_not_nan_partial`, `C115_rebin`, `C115_rebin_intbin`, `C115_project_partial`, `C115_refuted_cut`, `C115_refuted_group`, `C115_refuted_groupbin`, `C115_drop_partial`, `C115_refuted_profile`, `C116_independent_partial`, `C116_arrays_partial`, `C116_select_partial`, `C116_rebin_partial`, `C116_drop_partial`, `C116_refuted_group`, `C116_refuted`, `C117_label`, `C117_contains`, `C117_number`, `C117_same`, `C117_bins_partial`, `C117_from_zero`, `C117_groupbin_partial`, `C117_refuted_narrow`, `C117_refuted`, `C117_cells_partial`, `C118_table`, `C118_mean_partial`, `C118_error_partial`, `C118_single`, `C118_same_integer`, `C118_refuted_nan`, `C118_refuted_lost`, `C118_root_partial`, `C118_weighted_mean_partial`, `C118_weighted_effcount_partial`, `C118_weighted_error_partial`, `C118_weighted_table`, `C118_weighted_refuted_outside`, `C118_weighted_ones`, `C118_weighted_refuted_ones`, `C119_range`, `C119_counts`, `C119_weights`, `C119_refuted_negative`, `C120_refuted_fmod`, `C121_edges`, `C121_counts_partial`, `C121_refuted_edge`, `C121_refuted_value`, `C121_weights_partial`, `C122_any_order`, `C122_counts`, `C122_same`, `C122_laws`, `C122_grows`, `C122_refuted_assoc`, `C122_refuted_cancel`, `C123_uniform_partial`, `C123_order_partial`, `C123_product_partial`, `C123_logical_partial`, `C123_refuted_equal_less`, `C123_refuted_cycle`, `C123_refuted_product`, `C123_refuted_sets`, `C124_wraps_partial`, `C124_exact_partial`, `C124_refuted_quotient`, `C124_refuted_collected`, `C124_refuted_unsigned`, `C124_intbin_partial`, `C124_intbin_overflow`, `C125_float_partial`, `C125_fits_partial`, `C125_one_type_partial`, `C125_refuted`, `C125_refuted_inner`, `C125_first`, `C126_text_partial`, `C126_names_partial`, `C126_distinct_partial`, `C126_message_partial`, `C126_same_partial`, `C126_modern_partial`, `C126_refuted_literal`, `C126_refuted_lambda`, `C126_number`, `C126_tree`, `C127_select`, `C127_cut`, `C127_rebin`, `C127_drop`, `C127_multiples`, `C127_groups`, `C127_project_partial`, `C127_project_fixed`, `C127_project_multiple_partial`, `C127_refuted_project`, `C128_select_select`, `C128_select_rebin`, `C128_rebin_rebin`, `C128_drop_select`, `C128_group_select`, `C128_group_rebin`, `C128_groups_partial`, `C128_refuted_groups`, `C128_range`, `C128_refuted_flow`, `C128_project_group_partial`, `C128_project_group_fixed`, `C128_project_select_partial`, `C128_project_rebin_partial`, `C128_project_fixed`, `C128_project_refused`, `C128_project_group_refused_partial`, `C129_fixed`, `C129_group`, `C129_table_partial`, `C129_refuted_nan`, `C129_refuted_infinite`, `C129_normalized_partial`, `C129_group_order`, `C130_refuted_intbin_below`, `C130_refuted_intbin_above`, `C130_fixed_partial`, `C130_refused_partial`, `C130_refuted_intbin`, `C130_cut`, `C130_groups`, `C130_refuted_nan`, `C131_bin_partial`, `C131_split`, `C131_not_nan`, `C131_intbin_partial`, `C131_refuted_intbin`, `C131_refuted_flow`, `C131_groups`, `C131_refuted_cut`, `C132_steps`, `C132_same`, `C132_total`, `C132_lost`, `C133_refuted_profile_bin`, `C133_fill_partial`, `C133_refuted_integer`, `C133_refuted_groups`, `C133_refuted_weights`, `C133_refuted_profile`, `C134_root`, `C134_counts`, `C134_more`, `C134_table`, `C134_weights_partial`, `C134_grows`, `C134_ones`, `C134_refuted_small`, `C135_unchanged_partial`, `C135_own_groups_partial`, `C135_same_columns`, `C135_refuted`, `C135_refuted_after_sum`

Axioms: propext, Quot.sound

`C04_refuted_wraps`, `C30_group_partial`, `C30_refuted_order`, `C30_refuted_mixed`, `C30_refuted_filter`, `C43_drop_nothing`, `C56_set_partial`, `C56_set_accepts_partial`, `C57_built`, `C57_listing`, `C57_lookup_partial`, `C57_patterns`, `C58_refuted_flat`, `C58_partial`, `C59_partial`, `C62_imul_partial`, `C63_refuted_axis`, `C63_refuted_wildcard`, `C66_filter_number`, `C66_filter`, `C66_refuted_null`, `C67_type`, `C67_refuted_unfilled`, `C69_refuted`, `C69_refuted_nan`, `C70_dictionary`, `C70_made`, `C70_independent_partial`, `C70_sum`, `C70_disturbed`, `C70_refuted_shared`, `C75_keyword_first`, `C76_bins_identically`, `C76_bool_arguments`, `C76_refuted_nan`, `C78_overwritten`, `C78_overwritten_two`, `C84_setdefault_partial`, `C84_update_partial`, `C84_refuted_iteration`, `C84_refuted_keys`, `C91_chain`, `C91_plot`, `C91_heatmap`, `C96_refuted_infinite`, `C96_refuted_null`, `C96_refuted_reused`, `C97_conditions`, `C98_name_partial`, `C98_one_axis`, `C98_dict`, `C103_listing`, `C103_books_first`, `C103_methods`, `C109_refuted_nested`, `C109_arrangement`, `C109_grid`, `C111_refuted_options`, `C120_qualified_partial`, `C120_dotted`, `C120_bare`, `C120_bare_function_partial`, `C120_bare_math`, `C120_refuted_np`, `C120_refuted_attribute`, `C124_refuted_intbin`, `C124_refuted_unsigned_axis`

