{"id": "C01", "title": "bin: a finite value is counted in the published interval that contains it", "statement": "For every `bin` axis with at least one finite bin and every finite value, `fill` puts the value in the bin whose published interval (`axis.keys()[i]`) contains it, and in no other; the value is left out exactly when no published interval contains it because that flow bin was switched off.", "quantifier": "all bin counts >= 1, all low < high, all 16 combinations of underflow/overflow/nanflow/closedlow, all finite values whose scaled position fits a 32-bit index", "why_tests_cant": "Edges, closedness and the four flags interact at every edge of every axis; tests sample a handful of values on one axis.", "anchors": ["histbook/axis.py:bin.keys", "histbook/axis.py:bin._goals", "histbook/calc/__init__.py:histbook_bin"]}
{"id": "C02", "title": "bin: infinite and very large values go to the matching flow bin", "statement": "For every `bin` axis, +infinity and values far above `high` are counted as overflow (or left out without overflow), -infinity and values far below `low` as underflow, NaN as nanflow.", "quantifier": "all `bin` axes, all values including +-infinity, NaN and values whose bin position exceeds a 32-bit integer", "why_tests_cant": "The fault is at the end of the number range and depends on the flag combination; no unit test feeds infinities.", "anchors": ["histbook/calc/__init__.py:histbook_bin", "histbook/axis.py:bin.keys"]}
{"id": "C03", "title": "split: every value (finite, infinite or NaN) is counted in the published interval that contains it", "statement": "For every `split` axis and every value, `fill` uses the index of the unique entry of `axis.keys()` containing the value, and leaves it out exactly when that flow bin is switched off.", "quantifier": "all non-empty strictly increasing edge lists of any length, all flag combinations, all values including +-infinity and NaN", "why_tests_cant": "Unbounded edge lists times 16 flag combinations times values on/off edges.", "anchors": ["histbook/axis.py:split.keys", "histbook/calc/__init__.py:histbook_split"]}
{"id": "C04", "title": "intbin: every integer is counted in its own bin", "statement": "For every `intbin` axis, an integer n with min <= n <= max is counted in the bin labelled n; smaller ones are underflow and larger ones overflow (left out when those are switched off); and a value that is not in a bin's label is never counted there.", "quantifier": "all min <= max, all four flag combinations, all integer values (any width) and all non-integer values", "why_tests_cant": "Needs all integers, including those that overflow 32 bits, and the truncation of non-integers.", "anchors": ["histbook/axis.py:intbin.keys", "histbook/calc/__init__.py:histbook_intbin"]}
{"id": "C05", "title": "groupbin: the dictionary key is the low edge of the bin containing the value", "statement": "For every `groupbin` axis and finite value, the key under which the value is stored is origin plus an integer multiple of the bin width, and the published interval of that key contains the value; two values share a key exactly when they lie in the same published interval. NaN gets its own key or is left out.", "quantifier": "all positive bin widths, all origins, both closedness settings, all finite values and NaN", "why_tests_cant": "Unbounded values and origins; tests use a couple of values with origin 0.", "anchors": ["histbook/axis.py:groupbin.items", "histbook/calc/__init__.py:histbook_groupbin"]}
{"id": "C06", "title": "published bins of a fixed axis partition the line", "statement": "For every `bin` (>=1 bin) and `split` axis with all flow bins on, each number (finite, infinite or NaN) lies in exactly one published interval; the number of published intervals equals the number of bins allocated; and they are listed in increasing order. Each switched-off flow bin removes exactly its own interval.", "quantifier": "all bin/split/intbin axes, all flags, all values", "why_tests_cant": "Universally quantified over axes and values.", "anchors": ["histbook/axis.py:bin.keys", "histbook/axis.py:split.keys", "histbook/axis.py:intbin.keys", "histbook/axis.py:bin.totbins", "histbook/axis.py:split.totbins"]}
{"id": "C07", "title": "bin, its split conversion and intbin's bin conversion agree on every value", "statement": "`bin.split()` (used whenever a bin axis is rebinned) assigns every value the same bin number and publishes the same intervals as the original; `intbin.bin()` assigns every in-range integer the same bin number as the intbin.", "quantifier": "all bin axes with >=1 bin, all intbin axes, all values", "why_tests_cant": "Agreement of two different algorithms (scaling+floor versus search) over all inputs.", "anchors": ["histbook/axis.py:bin.split", "histbook/axis.py:intbin.bin", "histbook/calc/__init__.py:histbook_bin", "histbook/calc/__init__.py:histbook_split"]}
{"id": "C08", "title": "multi-axis cell number is row-major, in range and one-to-one", "statement": "For a histogram of any number of fixed axes, the flat position used by `fill` is within the allocated array, distinct bin combinations get distinct positions, and the position is the row-major one that `table`, `select` and `project` read back; an entry is left out exactly when some axis leaves it out.", "quantifier": "any number of fixed axes of any sizes, any per-axis bin numbers", "why_tests_cant": "Needs induction on the number of axes.", "anchors": ["histbook/hist.py:Hist._postfill", "histbook/hist.py:Hist.__init__"]}
{"id": "C09", "title": "no value can be written outside the array, whatever rounding does", "statement": "For every `bin` axis the bin number produced by `fill` is in range (or the value is left out) for every value, even if the floating-point scaling is replaced by an arbitrary function; and if the scaling is monotone, larger values never get smaller regular bin numbers.", "quantifier": "all bin axes, all values, all rounding behaviours", "why_tests_cant": "Quantifies over all rounding functions; tests only see one FPU and a few values.", "anchors": ["histbook/calc/__init__.py:histbook_bin"]}
{"id": "C10", "title": "an axis with zero finite bins separates values at its edge", "statement": "A `bin` axis accepted with zero finite bins (also what `select` leaves behind) counts values below `low` as underflow and values at or above `high` as overflow, and can be filled.", "quantifier": "all zero-bin axes low <= high, all finite values", "why_tests_cant": "Degenerate axes are never filled by tests.", "anchors": ["histbook/axis.py:bin.__init__", "histbook/axis.py:bin._select", "histbook/calc/__init__.py:histbook_bin"]}
{"id": "C11", "title": "bin content is the sum over its entries", "statement": "After any sequence of `fill` calls on an unweighted or weighted histogram without group axes, the content of each cell is exactly: number (or sum of weights) of all entries in that cell, sum of squared weights, and for each profile the sums of w*x and w*x^2 over those entries.", "quantifier": "all axis lists, all sequences of fill calls with arrays of any length (profiles only when no entry is left out)", "why_tests_cant": "History of unbounded length and arbitrary data.", "anchors": ["histbook/hist.py:Hist.fill", "histbook/hist.py:Hist._postfill", "histbook/fill.py:Fillable._fill"]}
{"id": "C12", "title": "splitting the data into batches does not change the histogram", "statement": "Filling with a batch and then another batch gives an equal histogram to filling once with the concatenation, for any number of batches in any split.", "quantifier": "all histograms, all data, all ways of cutting data in batches", "why_tests_cant": "All possible split points; with several group axes the difference shows only for some splits.", "anchors": ["histbook/hist.py:Hist._postfill", "histbook/hist.py:Hist.__eq__"]}
{"id": "C13", "title": "the order of entries does not matter", "statement": "Filling with any permutation of the rows gives the same content in every cell and the same set of group keys.", "quantifier": "all permutations of all data sets", "why_tests_cant": "Factorially many permutations.", "anchors": ["histbook/hist.py:Hist._postfill", "histbook/calc/__init__.py:histbook_groupby"]}
{"id": "C14", "title": "with all flow bins on every entry is counted exactly once", "statement": "With every flow bin on, the sum of counts over all cells increases by exactly the number of entries (or the sum of their weights) at each fill; with flow bins off it increases by the entries not left out.", "quantifier": "all axis lists, all data including NaN values", "why_tests_cant": "Conservation law over arbitrary data.", "anchors": ["histbook/hist.py:Hist._postfill", "histbook/calc/__init__.py:histbook_bin", "histbook/calc/__init__.py:histbook_split"]}
{"id": "C15", "title": "an entry whose weight is NaN contributes nothing", "statement": "A weighted fill where some weights are NaN equals the fill without those rows, in every column of every cell.", "quantifier": "all weighted histograms and all data", "why_tests_cant": "Any subset of rows may be NaN.", "anchors": ["histbook/hist.py:Hist._postfill"]}
{"id": "C16", "title": "filter is the same as removing rows first", "statement": "Filling a histogram that has a filter equals filling, with the failing rows removed, in all cells and columns, and the filter multiplies the weight by 1 or 0.", "quantifier": "all filters, weights and data", "why_tests_cant": "All subsets of rows.", "anchors": ["histbook/hist.py:Hist.__init__", "histbook/hist.py:Hist._postfill"]}
{"id": "C17", "title": "a fill that raises leaves the contents as they were", "statement": "If `fill` raises (missing field, wrong length, bad data) the histogram content is the same as before the call.", "quantifier": "all histograms, all failing calls", "why_tests_cant": "Every failure point of every call.", "anchors": ["histbook/fill.py:Fillable._fill", "histbook/hist.py:Hist.fill", "histbook/hist.py:Hist._postfill"]}
{"id": "C18", "title": "profiles can be combined with switched-off flow bins", "statement": "A histogram with a profile axis and a binned axis with a flow bin switched off accepts data falling in the switched-off bin, simply leaving those rows out.", "quantifier": "all such histograms and data", "why_tests_cant": "Needs the one data-dependent combination.", "anchors": ["histbook/hist.py:Hist._postfill"]}
{"id": "C19", "title": "counts and second moments keep their sign and bounds", "statement": "Unweighted counts are non-negative whole numbers; the sum of squared weights is non-negative; and in every cell (sum w x)^2 <= (sum w)(sum w x^2) for non-negative weights, so no reported error is the square root of a negative number.", "quantifier": "all sequences of fills", "why_tests_cant": "An invariant over unbounded histories.", "anchors": ["histbook/hist.py:Hist._postfill", "histbook/proj.py:Projectable.table"]}
{"id": "C20", "title": "group keys are exactly the keys seen", "statement": "After any sequence of fills, the keys present under a groupby axis are exactly the distinct values filled, and a combination of keys of several group axes is present exactly when some row had it.", "quantifier": "all histograms with group axes, all data", "why_tests_cant": "Depends on how rows are distributed over batches.", "anchors": ["histbook/hist.py:Hist._postfill", "histbook/hist.py:Hist.groupkeys"]}
{"id": "C21", "title": "adding histograms equals filling one with all the data", "statement": "If two histograms of the same axes were filled separately, `h1 + h2` has in every cell the content of one histogram filled with both data sets.", "quantifier": "all axes (with any number of group axes) and all data sets", "why_tests_cant": "All data pairs; parallel filling relies on it.", "anchors": ["histbook/hist.py:Hist.__add__", "histbook/hist.py:Hist._postfill"]}
{"id": "C22", "title": "addition is commutative and associative with the cleared histogram as zero", "statement": "`a+b == b+a`, `(a+b)+c == a+(b+c)` and `a + a.cleared() == a`, including never-filled operands and different group keys.", "quantifier": "all histograms with identical axes", "why_tests_cant": "Algebraic law over all contents.", "anchors": ["histbook/hist.py:Hist.__add__", "histbook/hist.py:Hist.cleared"]}
{"id": "C23", "title": "in-place addition equals addition and does not change the right operand", "statement": "`a += b` makes a equal to the value `a + b` would have had and leaves b unchanged, also when a later fill of a happens.", "quantifier": "all histograms with identical axes, later operations on a", "why_tests_cant": "Aliasing only shows up in later histories.", "anchors": ["histbook/hist.py:Hist.__iadd__", "histbook/hist.py:Hist._copycontent"]}
{"id": "C24", "title": "the sum is independent of its operands", "statement": "After `c = a + b`, any later fill or in-place operation on c leaves a and b unchanged and vice versa.", "quantifier": "all histograms, all later histories", "why_tests_cant": "Requires a history after the addition and partially overlapping group keys.", "anchors": ["histbook/hist.py:Hist.__add__"]}
{"id": "C25", "title": "scaling is linear", "statement": "`(a*k)*l == a*(k*l)`, `(a+b)*k == a*k + b*k`, `a*(k+l) == a*k + a*l`, `a*1 == a`, `a*n` is `a` added n times, and `*=` agrees with `*`, for every filled histogram; it also works on never-filled ones.", "quantifier": "all histograms and all scalars", "why_tests_cant": "Algebraic law.", "anchors": ["histbook/hist.py:Hist.__mul__", "histbook/hist.py:Hist.__imul__"]}
{"id": "C26", "title": "scaling a histogram scales its errors like its counts", "statement": "For weighted histograms `h * k` equals the histogram filled with every weight multiplied by k, so counts and errors both scale by |k|.", "quantifier": "all weighted histograms, all data, all scalars", "why_tests_cant": "Law over all data.", "anchors": ["histbook/hist.py:Hist.__mul__", "histbook/proj.py:Projectable.table"]}
{"id": "C27", "title": "copy is independent", "statement": "After `c = h.copy()`, c equals h, and no later operation on one changes the content of the other.", "quantifier": "all histograms, all later histories", "why_tests_cant": "History property about aliasing.", "anchors": ["histbook/hist.py:Hist.copy", "histbook/hist.py:Hist._copycontent"]}
{"id": "C28", "title": "copyonfill is independent on fill", "statement": "After `c = h.copyonfill()`, filling c (directly or through a book) does not change h, and filling h does not change c.", "quantifier": "all histograms, all later histories", "why_tests_cant": "History property about aliasing.", "anchors": ["histbook/hist.py:Hist.copyonfill", "histbook/hist.py:Hist.fill", "histbook/book.py:Book.fill"]}
{"id": "C29", "title": "addition rejects histograms whose columns differ", "statement": "Adding two histograms either raises or adds column by column columns with the same meaning; in particular histograms with different weight/filter settings are not silently mixed.", "quantifier": "all pairs of histograms", "why_tests_cant": "All pairs of specifications.", "anchors": ["histbook/hist.py:Hist.__add__", "histbook/hist.py:Hist.__iadd__"]}
{"id": "C30", "title": "grouping keeps the histograms apart", "statement": "`Hist.group(by, a=h1, b=h2)` succeeds or fails independent of the order of its arguments, and selecting name n from the result gives back the content of the nth histogram, unchanged.", "quantifier": "all collections of histograms, all names", "why_tests_cant": "Order of keyword arguments and all weight/filter settings.", "anchors": ["histbook/hist.py:Hist.group"]}
{"id": "C31", "title": "project equals filling the smaller histogram", "statement": "`h.project(axes)` equals, in every cell, a histogram with only those axes (and all profiles) filled with the same data.", "quantifier": "all histograms with fixed and group axes, all subsets of axes, all data", "why_tests_cant": "All dimensions, subsets and data.", "anchors": ["histbook/proj.py:Projectable.project"]}
{"id": "C32", "title": "projecting works for every number of group keys", "statement": "Projecting away a group axis gives a histogram of the right shape whose content is the sum over keys, whatever the number of keys (0,1,2,3,...), and the result can be projected again.", "quantifier": "all numbers of keys", "why_tests_cant": "Tests use 2 and 4 keys only; the recursion behaves differently for other numbers.", "anchors": ["histbook/proj.py:Projectable.project"]}
{"id": "C33", "title": "projections compose", "statement": "Projecting onto a set of axes and then a subset equals projecting onto the subset directly; the total is unchanged by every projection.", "quantifier": "all chains of projections", "why_tests_cant": "All chains.", "anchors": ["histbook/proj.py:Projectable.project"]}
{"id": "C34", "title": "select on a bin axis equals filtering the data before filling", "statement": "Whenever `h.select(\"x < c\")` (or >=, and > / <= on high-closed axes) succeeds on a bin axis, the result has the axis and content of a histogram with the reduced axis filled with only the rows satisfying the inequality.", "quantifier": "all bin axes, all thresholds accepted, all data", "why_tests_cant": "Thresholds at all edges, incl. first/last; index arithmetic on 8 flag sets.", "anchors": ["histbook/axis.py:bin._select", "histbook/proj.py:Projectable._select", "histbook/proj.py:Projectable._selectaxis"]}
{"id": "C35", "title": "select on a split axis equals filtering the data before filling", "statement": "As for bin axes, for every `split` axis.", "quantifier": "all edge lists, thresholds, flags and data", "why_tests_cant": "Unbounded edges.", "anchors": ["histbook/axis.py:split._select", "histbook/proj.py:Projectable._selectaxis"]}
{"id": "C36", "title": "select on an intbin axis equals filtering the data before filling", "statement": "As for bin axes, for every `intbin` axis with integer data, for <, <=, > and >=.", "quantifier": "all intbin axes, thresholds and integer data", "why_tests_cant": "Off-by-one hazards at both ends.", "anchors": ["histbook/axis.py:intbin._select", "histbook/proj.py:Projectable._selectaxis"]}
{"id": "C37", "title": "select never keeps part of a bin", "statement": "A threshold not within tolerance of a bin edge, or an inequality of the wrong closedness, is rejected with an error; an accepted threshold differs from the edge used by less than the tolerance.", "quantifier": "all axes, thresholds, comparison operators, tolerances", "why_tests_cant": "All thresholds.", "anchors": ["histbook/axis.py:bin._select", "histbook/axis.py:split._select", "histbook/axis.py:groupbin._select"]}
{"id": "C38", "title": "selecting NaN keeps the NaN bin only", "statement": "`select(\"x == nan\")` on an axis with a NaN bin gives a histogram with just that bin; `x != nan` removes just that bin; axis description and content always agree in size.", "quantifier": "all bin and split axes", "why_tests_cant": "All flag combinations.", "anchors": ["histbook/axis.py:bin._select", "histbook/axis.py:split._select"]}
{"id": "C39", "title": "select on group axes keeps exactly the keys that satisfy the expression", "statement": "For any boolean combination of comparisons on a group axis, `select` keeps exactly the keys for which the expression is true (same content), for every number of terms.", "quantifier": "all boolean expressions (and/or of any number of terms), all key sets", "why_tests_cant": "Behaviour changes with the number of terms; tests use at most two.", "anchors": ["histbook/proj.py:Projectable._select", "histbook/axis.py:groupby._select"]}
{"id": "C40", "title": "select on a cut axis equals filtering on the cut", "statement": "Selecting the expression of a cut axis (or `not name`) gives the passing (failing) half with the cut axis removed, whatever the form of the boolean expression.", "quantifier": "all cut expressions including conjunctions", "why_tests_cant": "All expression forms.", "anchors": ["histbook/proj.py:Projectable.select", "histbook/axis.py:cut._select"]}
{"id": "C41", "title": "rebin equals filling the coarser axis", "statement": "For a bin/split/intbin axis and any subset of its edges, `rebin` gives the content of a histogram with the coarser split axis filled with the same data, in all dimensions.", "quantifier": "all axes, all non-empty subsets of edges in any order, all flags, all data", "why_tests_cant": "2^n subsets of edges; hand-written index loops.", "anchors": ["histbook/axis.py:split._rebinsplit", "histbook/proj.py:Projectable.rebin"]}
{"id": "C42", "title": "rebinning by a factor works", "statement": "`rebinby(axis, k)` combines k neighbouring bins, for every rebinnable axis and every positive k.", "quantifier": "all axes and factors", "why_tests_cant": "Never called by the tests.", "anchors": ["histbook/proj.py:Projectable.rebinby", "histbook/axis.py:bin._rebinfactor"]}
{"id": "C43", "title": "dropping a profile leaves all other data alone", "statement": "`drop(p)` removes only the columns of profile p: counts, squared weights and all other profiles are unchanged.", "quantifier": "all histograms, all sets of profiles to drop, weighted, filtered or not", "why_tests_cant": "All subsets of profiles.", "anchors": ["histbook/proj.py:Projectable.drop"]}
{"id": "C44", "title": "operations that return a new histogram do not disturb the original", "statement": "After calling project, select, drop or rebin on h, a later fill or table of h gives the same result as if the call had not happened.", "quantifier": "all histograms, all subsequent histories", "why_tests_cant": "Shared mutable axis objects; shows only in call, then fill.", "anchors": ["histbook/hist.py:Hist.__init__", "histbook/proj.py:Projectable.project", "histbook/hist.py:Hist._postfill"]}
{"id": "C45", "title": "table reports count, error, effective count and mean of each cell", "statement": "For every cell with positive weight, `table` reports count = sum of weights, error^2 = sum of squared weights (or count), effective count = (sum w)^2 / sum w^2, mean = weighted mean of the profile, and error^2 of the mean = weighted variance / effective count, which is non-negative.", "quantifier": "all data, all column options", "why_tests_cant": "All data sets.", "anchors": ["histbook/proj.py:Projectable.table"]}
{"id": "C46", "title": "normalized table integrates to one", "statement": "With `normalized=True` the counts of a table times the bin widths sum to 1 over the finite bins (as documented), with and without group axes.", "quantifier": "all histograms with a positive finite count", "why_tests_cant": "All contents and widths.", "anchors": ["histbook/proj.py:Projectable.table"]}
{"id": "C47", "title": "fraction is pass over total and lies in [0,1]", "statement": "`fraction(cut)` gives for each cell the ratio passing/total; with non-negative weights it lies in [0,1]; complementary cuts add to 1; it works with and without profiles.", "quantifier": "all histograms with cut axes, all data", "why_tests_cant": "All data sets and axis combinations.", "anchors": ["histbook/proj.py:Projectable.fraction", "histbook/proj.py:Projectable._fraction"]}
{"id": "C48", "title": "arithmetic expressions keep their value when parsed", "statement": "For every arithmetic expression of names, numbers, + - * / and small integer powers, the value computed per row equals the value of the expression as written, wherever no division by zero occurs.", "quantifier": "all expressions of any depth, all values of the fields", "why_tests_cant": "Infinitely many expressions; the normal form is only wrong for some shapes.", "anchors": ["histbook/expr.py:Expr.parse", "histbook/expr.py:RingAlgebraAddLike.collect", "histbook/expr.py:RingAlgebraAddLike.distribute", "histbook/expr.py:RingAlgebraAddLike.simplify"]}
{"id": "C49", "title": "parsing does not raise on well-formed arithmetic", "statement": "Every well-formed arithmetic expression over names and numbers without division by a zero constant can be parsed.", "quantifier": "all such expressions", "why_tests_cant": "Infinitely many expressions.", "anchors": ["histbook/expr.py:Expr.parse", "histbook/expr.py:RingAlgebraAddLike.collect"]}
{"id": "C50", "title": "boolean expressions keep their value when parsed", "statement": "For every combination of comparisons with and/or/not and chained comparisons, the truth value per row equals that of the expression as written, including rows with NaN.", "quantifier": "all boolean expressions, all field values including NaN", "why_tests_cant": "Infinitely many expressions.", "anchors": ["histbook/expr.py:Expr.parse", "histbook/expr.py:Logical.negate", "histbook/expr.py:LogicalAnd.combine", "histbook/expr.py:LogicalOr.combine", "histbook/expr.py:Relation.negate"]}
{"id": "C51", "title": "expressions that differ by order of operands are recognised as the same", "statement": "Reordering the terms of a sum, the factors of a product, the operands of and/or, or swapping < for > yields an equal parsed expression, so axes can be looked up by any such variant.", "quantifier": "all expressions, all reorderings", "why_tests_cant": "All permutations.", "anchors": ["histbook/expr.py:RingAlgebra.combine", "histbook/expr.py:Logical.__init__", "histbook/proj.py:AxisTuple.__getitem__"]}
{"id": "C52", "title": "the computation tree has the value of the expression", "statement": "The function-call tree built for the computation evaluates to the value of the parsed expression for every row, including negated boolean fields.", "quantifier": "all parsed expressions, all field values", "why_tests_cant": "Unbounded trees; the tests only check negation symbolically.", "anchors": ["histbook/instr.py:totree"]}
{"id": "C53", "title": "one-pass evaluation gives every quantity its own value", "statement": "The instruction list executed by `fill` computes every requested quantity equal to evaluating it on its own, uses no value before it is computed or after it is deleted, computes shared subexpressions once, in every iteration order of the underlying sets.", "quantifier": "all sets of goal expressions, all set iteration orders", "why_tests_cant": "Schedules: iteration order of Python sets is not fixed.", "anchors": ["histbook/instr.py:walkdown", "histbook/instr.py:instructions", "histbook/instr.py:CallGraphNode.grow", "histbook/fill.py:Fillable._fill"]}
{"id": "C54", "title": "every requested quantity is computed", "statement": "Every axis, weight or profile expression is computed on each fill, also if it contains a function of constants only, such as sqrt(2)*x.", "quantifier": "all expressions", "why_tests_cant": "Only certain shapes are missed, silently.", "anchors": ["histbook/instr.py:walkdown", "histbook/instr.py:CallGraphNode.sources", "histbook/hist.py:Hist._postfill"]}
{"id": "C55", "title": "definitions are substituted faithfully", "statement": "An expression that uses a name from `defs` has, per row, the value of the expression in which the definition is written out.", "quantifier": "all definitions and expressions", "why_tests_cant": "Infinitely many.", "anchors": ["histbook/expr.py:Expr.parse"]}
{"id": "C56", "title": "book get after set", "statement": "After `book[path] = h`, `book[path]` is h, all other paths are unaffected unless below path, and intermediate books are created; `del book[path]` makes exactly that path and those below unavailable.", "quantifier": "all books, all paths of any depth, all values", "why_tests_cant": "All paths and histories.", "anchors": ["histbook/book.py:GenericBook._set", "histbook/book.py:GenericBook._get", "histbook/book.py:GenericBook._del"]}
{"id": "C57", "title": "listing and lookup agree", "statement": "The paths listed recursively by a book are distinct and are exactly the paths at which lookup succeeds; `in` agrees with the listing.", "quantifier": "all books built through the interface", "why_tests_cant": "All histories of assignments.", "anchors": ["histbook/book.py:GenericBook._iteritems", "histbook/book.py:GenericBook.__contains__"]}
{"id": "C58", "title": "wildcard deletion removes only matching paths", "statement": "`del book[pattern]` removes exactly the histograms whose path matches the wildcard pattern.", "quantifier": "all books and patterns", "why_tests_cant": "All patterns.", "anchors": ["histbook/book.py:GenericBook.__delitem__"]}
{"id": "C59", "title": "a failed assignment leaves the book unchanged", "statement": "If `book[path] = value` raises, the book has the same contents as before, also for books that require all their members to be compatible.", "quantifier": "all books, paths, values", "why_tests_cant": "All failure points.", "anchors": ["histbook/book.py:GenericBook._set", "histbook/book.py:SystematicsBook._changed"]}
{"id": "C60", "title": "filling a book equals filling each histogram", "statement": "`book.fill(data)` leaves each histogram in the book (at any depth) with the content it would have got from `hist.fill(data)`.", "quantifier": "all books including the same histogram listed twice, all data", "why_tests_cant": "All combinations of histograms sharing subexpressions.", "anchors": ["histbook/book.py:Book.fill", "histbook/book.py:Book._streamline", "histbook/hist.py:Hist._streamline"]}
{"id": "C61", "title": "changes deep inside a book are seen by the next fill", "statement": "After adding, replacing or removing a histogram anywhere below a book, the next fill of the book fills exactly the histograms now listed, correctly.", "quantifier": "all histories of changes and fills", "why_tests_cant": "Cache invalidation over histories.", "anchors": ["histbook/book.py:Book._changed", "histbook/fill.py:Fillable.fields", "histbook/book.py:GenericBook._set"]}
{"id": "C62", "title": "book arithmetic is histogram-wise", "statement": "`b1 + b2` has under each path the sum of the histograms (or the one that exists), the operands are unchanged and remain independent of the result; `+=` agrees with `+`; `*` scales each histogram.", "quantifier": "all books", "why_tests_cant": "All shapes and later histories.", "anchors": ["histbook/book.py:GenericBook.__add__", "histbook/book.py:GenericBook.__iadd__", "histbook/book.py:GenericBook.__mul__"]}
{"id": "C63", "title": "compatibility is an equivalence and checking neighbours suffices", "statement": "`compatible` on axes and histograms is reflexive, symmetric and transitive; a book accepted by the pairwise-neighbour check has all its members mutually compatible.", "quantifier": "all axes, histograms and books", "why_tests_cant": "Transitivity over all members.", "anchors": ["histbook/axis.py:bin.compatible", "histbook/hist.py:Hist.compatible", "histbook/book.py:GenericBook.assertcompatible"]}
{"id": "C64", "title": "samples of a samples book are independent", "statement": "Filling one sample of a SamplesBook (through its book or a view) never changes the histograms of another sample.", "quantifier": "all samples books, including templates that were already filled, all histories", "why_tests_cant": "Sharing shows only for filled templates.", "anchors": ["histbook/book.py:SamplesBook.__init__", "histbook/book.py:Book.fill", "histbook/hist.py:Hist.copyonfill"]}
{"id": "C65", "title": "a systematics book can be filled", "statement": "A SystematicsBook is a book and can be filled like one.", "quantifier": "all non-empty systematics books", "why_tests_cant": "Never filled by tests.", "anchors": ["histbook/book.py:SystematicsBook._changed", "histbook/fill.py:Fillable.fields"]}
{"id": "C66", "title": "pickle and state round trip", "statement": "Restoring a histogram from its pickled state gives an equal histogram (same axes, weight, filter, definitions, content and attachments) that fills identically.", "quantifier": "all histograms and contents", "why_tests_cant": "All axis parameters and nested contents.", "anchors": ["histbook/hist.py:Hist.__getstate__", "histbook/hist.py:Hist.__setstate__", "histbook/axis.py:Axis._unpack"]}
{"id": "C67", "title": "JSON round trip", "statement": "`fromjson(tojson(h)) == h` for every histogram, and still so after the object has gone through JSON text.", "quantifier": "all histograms, all group keys", "why_tests_cant": "All key types and axis parameters.", "anchors": ["histbook/hist.py:Hist.tojson", "histbook/hist.py:Hist.fromjson", "histbook/axis.py:Axis.fromjson"]}
{"id": "C68", "title": "book JSON round trip", "statement": "`fromjson(tojson(b)) == b` for every book of any nesting.", "quantifier": "all nested books", "why_tests_cant": "All nestings.", "anchors": ["histbook/book.py:GenericBook.tojson", "histbook/book.py:GenericBook.fromjson"]}
{"id": "C69", "title": "equality of histograms is an equivalence and reading does not change it", "statement": "`==` on histograms is reflexive, symmetric, transitive; calling `table()` or indexing does not change what a histogram is equal to.", "quantifier": "all histograms and histories of reads", "why_tests_cant": "Relations over all triples.", "anchors": ["histbook/hist.py:Hist.__eq__", "histbook/hist.py:Hist._prefill", "histbook/hist.py:Hist.__getitem__"]}
{"id": "C70", "title": "attachments behave like a dictionary and survive", "statement": "get-after-attach, detach, has and default lookup follow dictionary laws; copies have their own attachments; a sum does not share attachments with its operands.", "quantifier": "all histories of attach/detach", "why_tests_cant": "Histories.", "anchors": ["histbook/hist.py:Hist.attach", "histbook/hist.py:Hist.detach", "histbook/hist.py:Hist.get", "histbook/hist.py:Hist.__add__"]}
{"id": "C71", "title": "Spark filling agrees with local filling", "statement": "`fill` with a Spark DataFrame gives in every cell the content that filling with the same rows as arrays gives.", "quantifier": "all axes, flags and data", "why_tests_cant": "Two implementations over all inputs; never tested.", "anchors": ["histbook/calc/spark.py:fillspark"]}
{"id": "C72", "title": "exported table rows carry the right labels", "statement": "In the pandas export the row labelled with a combination of bins contains the numbers of exactly that cell; labels are listed as many times as there are rows.", "quantifier": "all histograms of any dimension with at least one axis", "why_tests_cant": "All dimensions.", "anchors": ["histbook/export.py:Exportable.pandas"]}
{"id": "C73", "title": "ROOT export puts each bin in its place", "statement": "In the one-dimensional ROOT export underflow, regular bins and overflow receive the contents of the corresponding histogram bins, absent flow bins are zero and NaN is left out.", "quantifier": "all bin axes and flags", "why_tests_cant": "8 flag combinations times all sizes.", "anchors": ["histbook/export.py:Exportable.root"]}
{"id": "C74", "title": "interval order is a strict order with NaN last", "statement": "The order on published intervals is irreflexive, transitive, and consistent with equality; NaN sorts after everything else.", "quantifier": "all pairs and triples of intervals", "why_tests_cant": "Relations.", "anchors": ["histbook/axis.py:Interval.__lt__", "histbook/axis.py:IntervalNaN.__lt__"]}
{"id": "C75", "title": "keyword arrays take precedence and missing fields are reported", "statement": "When a field is given both in the dict and as keyword the keyword wins; a field in neither is reported by name; scalar arguments count as that value for every row; pi, e, inf, nan are only used when not supplied.", "quantifier": "all argument combinations", "why_tests_cant": "All combinations.", "anchors": ["histbook/util/__init__.py:ChainedDict", "histbook/fill.py:Fillable._fill"]}
{"id": "C76", "title": "axis descriptions survive packing, copying and JSON", "statement": "Each axis restored from its packed, copied or JSON form equals the original and bins identically; relabel changes nothing but the expression.", "quantifier": "all axes of all seven kinds", "why_tests_cant": "All parameters.", "anchors": ["histbook/axis.py:bin._pack", "histbook/axis.py:bin.copy", "histbook/axis.py:bin.relabel", "histbook/axis.py:Axis.fromjson"]}
{"id": "C77", "title": "whatever expression is accepted can be computed", "statement": "If an axis, weight or filter expression is accepted when the histogram is constructed, filling can compute it: every operator and function that the expression language accepts has an implementation.", "quantifier": "all accepted expressions and all rows", "why_tests_cant": "Unbounded set of expressions; each operator would need its own test.", "anchors": ["histbook/expr.py:Expr.parse", "histbook/calc/__init__.py:library", "histbook/calc/__init__.py:calculate"]}
{"id": "C78", "title": "filling does not change the arrays that were passed in", "statement": "After filling, every array the user supplied has the contents it had before, whatever expressions the histogram uses.", "quantifier": "all expressions, arrays and numbers of rows", "why_tests_cant": "Unbounded expressions; a violation shows only when the caller looks at an unrelated array afterwards.", "anchors": ["histbook/calc/__init__.py:calculate", "histbook/calc/__init__.py:library"]}
{"id": "C79", "title": "functions in expressions have their standard meaning", "statement": "fmod is the rest of division rounded towards zero, mod and % the rest of division rounded down, fmax and fmin ignore NaN, as in C, Python and NumPy; floor, ceil, trunc and rint round down, up, towards zero and to the nearest integer (of two the even one); abs, sign, copysign, heaviside, max, min and where are the functions of NumPy of these names.", "quantifier": "all pairs of numbers including negative and missing ones", "why_tests_cant": "All values; the usual tests use positive numbers only.", "anchors": ["histbook/calc/__init__.py:library", "histbook/expr.py:Expr.recognized"]}
{"id": "C80", "title": "a constant counts as that constant for every row", "statement": "An axis, profile or filter whose expression is a constant (also one that the parser simplifies to a constant, such as x - x) puts every row of the fill at that value.", "quantifier": "all histograms with constant expressions among others, all data", "why_tests_cant": "Interplay of all expressions of a histogram.", "anchors": ["histbook/axis.py:bin._goals", "histbook/expr.py:BroadcastConst", "histbook/fill.py:Fillable.fields", "histbook/fill.py:Fillable._fill"]}
{"id": "C81", "title": "from the arguments of fill to the bins", "statement": "After `fill(arrays)` each bin has grown by the sum over the rows of the arrays for which the values of the axis expressions, computed from the row as the expressions are written, lie in the bin; weights and profiles likewise.", "quantifier": "all histograms, all expressions, all arguments, all iteration orders of sets", "why_tests_cant": "Combination of parser, call graph, execution, binning and summation.", "anchors": ["histbook/hist.py:Hist.fill", "histbook/fill.py:Fillable._fill", "histbook/hist.py:Hist._postfill", "histbook/axis.py:bin._goals"]}
{"id": "C82", "title": "copies of books are equal and independent", "statement": "`copy()` of a book has the same classes, names and histograms with equal contents, all of them new histograms, so that changing one book never changes the other; `cleared()` is the same with empty histograms and agrees with `clear()` in place. They raise only if a SystematicsBook inside does not pass its own checks.", "quantifier": "all books of any nesting and classes", "why_tests_cant": "All shapes.", "anchors": ["histbook/book.py:GenericBook.copy", "histbook/book.py:GenericBook.cleared", "histbook/book.py:GenericBook.clear"]}
{"id": "C83", "title": "constructing a histogram keeps what was given", "statement": "`Hist(*axes, weight=..., filter=..., defs=...)` has every axis exactly once (grouping axes, then fixed axes, then profiles, each kind in the given order), computes each with the given definitions, remembers weight, filter, definitions and attachment, and is empty; an expression that cannot be parsed or a filter that is not a condition raises.", "quantifier": "all lists of axes and options", "why_tests_cant": "All combinations and orders of axes.", "anchors": ["histbook/hist.py:Hist.__init__"]}
{"id": "C84", "title": "a book behaves like a dict", "statement": "As documented, a book behaves like a dict: iterating gives its keys, `len` is their number, and `pop`, `popitem`, `setdefault` and `update` do what they do for a dict.", "quantifier": "all books, names and values", "why_tests_cant": "All shapes of books.", "anchors": ["histbook/book.py:GenericBook", "histbook/book.py:GenericBook.__iter__", "histbook/book.py:GenericBook.__len__"]}
{"id": "C85", "title": "a view has exactly the matching histograms", "statement": "`view(pattern)` of a SamplesBook or ChannelsBook has exactly the histograms whose full path matches the pattern, under the same paths and in the same order, and they are the same histograms, so filling the view fills them and no others; without matching histograms it raises ValueError.", "quantifier": "all books, patterns and matching functions", "why_tests_cant": "All shapes of books and all sets of matching paths.", "anchors": ["histbook/book.py:ViewableBook.view", "histbook/book.py:ViewBook", "histbook/book.py:Book.fill"]}
{"id": "C86", "title": "plots show every bin once, with its value", "statement": "The records of a plot of one variable (bars, lines, markers) are one per group and bin of the axes in the plot, with the texts of the group and the bins (at the plotted axis the centre of the bin, for lines and markers along numbers, where only finite bins are drawn), and with the values and errors of exactly the rows in them, the other axes added up; a logarithmic scale leaves out exactly the records whose value is not above zero.", "quantifier": "all histograms, fills, plot chains and ways to write numbers", "why_tests_cant": "Projection, table and recursion over any number of axes.", "anchors": ["histbook/vega.py:Plotable1d._data", "histbook/vega.py:PlottingChain.bar", "histbook/vega.py:PlottingChain.line", "histbook/vega.py:PlottingChain.marker"]}
{"id": "C87", "title": "outlines follow the bins", "statement": "The records of a step or area plot along an axis of numbers are, for each group and each bin of the other axes, the points of the outline of the histogram: zero at the lower end of the axis, the value of each bin from its lower to its upper edge, zero at the upper end.", "quantifier": "all histograms, fills and plot chains", "why_tests_cant": "Any edges, any number of axes.", "anchors": ["histbook/vega.py:Plotable1d._data", "histbook/vega.py:PlottingChain.step", "histbook/vega.py:PlottingChain.area"]}
{"id": "C88", "title": "heatmaps show every cell once, with its value", "statement": "The records of a heatmap are one per group and bin of its axes that is finite in both directions, with the texts of the axes that only split the picture, the centres (or names) of the bins of the two drawn axes, and the count or mean of exactly the rows in them; the drawing takes x, y, colour, columns and rows from these columns and its range from the edges of the axes.", "quantifier": "all histograms, fills, pairs of axes and splits", "why_tests_cant": "Projection, table and recursion over any number of axes.", "anchors": ["histbook/vega.py:Plotable2d._data", "histbook/vega.py:Plotable2d._vegalite", "histbook/vega.py:PlottingChain.heatmap"]}
{"id": "C89", "title": "legends, stacks and split pictures name what the records have", "statement": "A plot takes x and y from the columns of its axis and its values, splits by the columns of the `beside` and `below` axes, and colours by the column of the `overlay` or `stack` axis with a legend that has the text of every record and no invented one; stacking follows the legend (or the given order).", "quantifier": "all histograms, fills and plot chains with content", "why_tests_cant": "Any set of keys, kinds of axes and chains.", "anchors": ["histbook/vega.py:Plotable1d._vegalite", "histbook/vega.py:Plotable1d._data", "histbook/vega.py:PlottingChain.overlay", "histbook/vega.py:PlottingChain.stack", "histbook/vega.py:PlottingChain.beside", "histbook/vega.py:PlottingChain.below"]}
{"id": "C90", "title": "combined plots show each plot's own data", "statement": "`overlay`, `beside`, `below` and `grid` of plots, nested as the constructors allow, give one picture in which each plot has the layers it has alone, limited to its own records, arranged as asked (in order; `grid` in rows of the given length); if a part raises, so does the whole.", "quantifier": "all trees of combinations and all plots", "why_tests_cant": "Any depth and number of plots; names of the data sets must not collide.", "anchors": ["histbook/vega.py:Combination", "histbook/vega.py:Combination._collectdata", "histbook/vega.py:Combination._varname", "histbook/vega.py:overlay", "histbook/vega.py:beside", "histbook/vega.py:below", "histbook/vega.py:grid"]}
{"id": "C91", "title": "plot chains accept exactly the documented calls", "statement": "A chain of `overlay`, `stack`, `beside` and `below` followed by a mark is accepted exactly if no method is called twice, only bars and areas are stacked, plots with error bars are not split into several pictures, and the axis can be told (it is given, or it is the only axis of the histogram); the result has exactly the calls and options given. Heatmaps accept only `beside` and `below`.", "quantifier": "all sequences of calls and options", "why_tests_cant": "All sequences of calls.", "anchors": ["histbook/vega.py:PlottingChain", "histbook/vega.py:PlottingChain._singleaxis", "histbook/vega.py:Plotable1d", "histbook/vega.py:Plotable2d"]}
{"id": "C92", "title": "error bars are at the bins", "statement": "A plot with `error=True` draws a second layer in which each bin has an error bar at the position of its mark, around its value, as long as the error of the bin.", "quantifier": "all histograms, fills, marks and plot chains", "why_tests_cant": "Any axes, fills and chains.", "anchors": ["histbook/vega.py:Plotable1d._vegalite", "histbook/vega.py:Plotable1d._data"]}
{"id": "C93", "title": "an expression means the same on Spark", "statement": "For every row, the column that is computed on a Spark DataFrame for an axis, weight or filter expression has the value (or truth value) that is computed for the same expression from arrays; every expression that can be computed from arrays can be computed on Spark.", "quantifier": "all expressions, rows and types of fields", "why_tests_cant": "All expressions and values; Spark itself is not available in tests.", "anchors": ["histbook/calc/spark.py:tocolumns", "histbook/instr.py:totree"]}
{"id": "C94", "title": "a value that is no number spoils only its own bin", "statement": "After filling with data that has NaN or infinite profile values or weights, every column of every bin is the floating-point sum over the rows of that bin: a NaN or infinite value changes only the columns of its own profile in its own bin, never the counts, other profiles or other bins, and the order and batching of the rows do not matter.", "quantifier": "all histograms and all data including NaN and infinite numbers", "why_tests_cant": "Where the bad values are, and how many, is arbitrary.", "anchors": ["histbook/hist.py:Hist._postfill"]}
{"id": "C95", "title": "errors of fractions are uncertainties by the requested method", "statement": "In the table that `fraction` returns, each column has what its name says: `err(c)` is the uncertainty of the fraction of `c`, by the method and at the level that were asked for, for every method that the documentation lists; the default level is one sigma; other methods are refused; the uncertainty decreases with the number of entries and does not depend on the unit in which weights are given.", "quantifier": "all numbers of cuts and levels, all methods, all sums of weights", "why_tests_cant": "All fractions, numbers of entries and levels; square roots.", "anchors": ["histbook/proj.py:_fraction", "histbook/proj.py:level2sigmas", "histbook/proj.py:handlearray"]}
{"id": "C96", "title": "the text of a histogram makes it again", "statement": "The text that `repr` and `str` show for an axis or a histogram is a Python expression: evaluated with the names that the package exports, it makes the same axis, or the same histogram without its content and attachments. So histograms of different definition are shown differently.", "quantifier": "all axes and histograms that can be made", "why_tests_cant": "All axes, options, weights, filters and definitions; that no two texts coincide.", "anchors": ["histbook/axis.py:bin.__repr__", "histbook/axis.py:intbin.__repr__", "histbook/axis.py:split.__repr__", "histbook/axis.py:groupbin.__repr__", "histbook/axis.py:groupby.__repr__", "histbook/axis.py:cut.__repr__", "histbook/axis.py:profile.__repr__", "histbook/hist.py:Hist.__repr__"]}
{"id": "C97", "title": "the text of an expression means the expression", "statement": "The text of a parsed expression (`str` of what `Expr.parse` returns), read as a Python expression, has on every row of data the value of the expression; Python can read it in one way only.", "quantifier": "all expressions that can be parsed", "why_tests_cant": "All nestings of sums, products, quotients, powers, calls and comparisons, and all rows of data.", "anchors": ["histbook/expr.py:Const.__str__", "histbook/expr.py:Name.__str__", "histbook/expr.py:Call.__str__", "histbook/expr.py:BinOp.__str__", "histbook/expr.py:RingAlgebraBinOp.__str__", "histbook/expr.py:Relation.__str__", "histbook/expr.py:Predicate.__str__", "histbook/expr.py:Expr.__repr__"]}
{"id": "C98", "title": "a single array fills the only axis", "statement": "A histogram with one axis can be given an array directly in its constructor, `Hist(axis, fill=array)`: it is filled with the values of the array as the data of its axis. An array for a histogram with several axes is refused.", "quantifier": "all histograms, quantities and arrays", "why_tests_cant": "All quantities and arrays; that every field that is needed is found.", "anchors": ["histbook/hist.py:Hist.__init__", "histbook/hist.py:Hist.fill", "histbook/fill.py:Fillable._fill"]}
{"id": "C99", "title": "a selection with a boolean expression keeps the rows for which it is true", "statement": "`h.select(expression)` takes comparisons of the quantities of axes with constants on either side, fields used as conditions, their negations, ands and ors of these. Whatever axis each of the conditions is about, the result has the content of a histogram with the axes of the result that is filled only with the rows in which the whole expression is true; its axes have the quantities of axes of h.", "quantifier": "all histograms with group axes and fixed axes, all data and all boolean expressions that are accepted", "why_tests_cant": "All expressions, axes and rows; which axis is found, and in which order conditions are applied to what is left of the axes.", "anchors": ["histbook/proj.py:Projectable.select", "histbook/proj.py:Projectable._select", "histbook/proj.py:Projectable._selectaxis", "histbook/expr.py:Expr.maybeconstants"]}
{"id": "C100", "title": "groupkeys lists the keys that were filled", "statement": "After filling, `h.groupkeys(axis)` is the set of all keys that the data have on this group axis, over all combinations with the other group axes and over all calls of `fill`; for a histogram without data it is empty; anything but a group axis of the histogram is refused with an IndexError.", "quantifier": "all histograms with any number of group axes, all axes given as object, expression or position, all sequences of batches", "why_tests_cant": "All nestings of group axes, all keys and all ways to cut the data into batches.", "anchors": ["histbook/hist.py:Hist.groupkeys", "histbook/proj.py:AxisTuple.__getitem__"]}
{"id": "C101", "title": "togroup adds histograms to a group", "statement": "`h.togroup(name=other)` adds the histogram `other` to the group `name` of a histogram made by `Hist.group`, or adds it to what is already there under this name.", "quantifier": "all grouped histograms, all names and all histograms with the same axes", "why_tests_cant": "All contents and numbers of histograms.", "anchors": ["histbook/hist.py:Hist.togroup"]}
{"id": "C102", "title": "axes are found by quantity, class and position", "statement": "`h.axis` lists all axes given to the constructor; `h.axis[expression]` is the axis with this quantity; `h.axis.bin(expression, low=...)` and the like give the axis of this class with this quantity and these arguments; `h.axis[i]` is the axis given at position `i`; if there is no such axis, an IndexError is raised.", "quantifier": "all lists of axes of all classes, all expressions, keyword arguments and positions", "why_tests_cant": "All numbers and orders of axes, and all combinations of equal quantities.", "anchors": ["histbook/proj.py:AxisTuple.__getitem__", "histbook/proj.py:AxisTuple._findbyclass", "histbook/proj.py:Projectable.axis", "histbook/hist.py:Hist.__init__"]}
{"id": "C103", "title": "listings of a book", "statement": "`items`, `keys`, `values`, their `iter...` and `all...` forms list exactly the entries of the book, each once and books before their entries: on the first level or with `recursive=True` (documented as the default) on all levels, all entries or with `onlyhist=True` only histograms.", "quantifier": "all books of books of any depth, and all values of both options", "why_tests_cant": "All shapes and depths of nested books.", "anchors": ["histbook/book.py:GenericBook._iteritems", "histbook/book.py:GenericBook.iteritems", "histbook/book.py:GenericBook.items", "histbook/book.py:GenericBook.keys", "histbook/book.py:GenericBook.values", "histbook/book.py:GenericBook.allitems", "histbook/book.py:GenericBook.allkeys", "histbook/book.py:GenericBook.allvalues"]}
{"id": "C104", "title": "counting on a bin axis in double precision", "statement": "With the machine's arithmetic, a number that is not within a few roundings of an edge is counted in the one bin whose published interval contains it; the low edge is in the first bin; of two numbers the greater is never counted in an earlier bin; published edges begin with `low` and never decrease; NaN and infinite numbers are counted as with exact arithmetic.", "quantifier": "all bin axes of at most 2^30 bins with limits that are doubles of moderate size, and all doubles", "why_tests_cant": "All doubles near all edges of all axes: rounding errors show only at values that no test list contains.", "anchors": ["histbook/axis.py:bin._goals", "histbook/calc/__init__.py:histbook_bin", "histbook/axis.py:bin.keys"]}
{"id": "C105", "title": "grouping by intervals in double precision", "statement": "With the machine's arithmetic, `groupbin` gives one key to all numbers of an interval that are not within a few roundings of its ends; greater numbers never get smaller keys; a number is at most a few roundings outside of the interval published for its key.", "quantifier": "all groupbin axes whose width and origin are doubles of moderate size, and all doubles", "why_tests_cant": "All doubles near all ends of intervals.", "anchors": ["histbook/calc/__init__.py:histbook_groupbin", "histbook/axis.py:groupbin.keys"]}
{"id": "C106", "title": "contents in double precision", "statement": "Unweighted counts are exact integers however the data are cut into batches and merged; weighted contents differ from the exact sums by no more than the accumulated rounding of one addition per entry.", "quantifier": "all bin axes with limits of moderate size, all sequences of batches with up to 2^53 entries, all weights that are doubles", "why_tests_cant": "All data, all cuts into batches and all weights.", "anchors": ["histbook/hist.py:Hist.fill", "histbook/hist.py:Hist._postfill", "histbook/hist.py:Hist.__add__"]}
{"id": "C107", "title": "the published bin width", "statement": "`bin.binwidth` is `(high - low) / numbins` up to a few roundings, and such that `numbins` times it stays below `high - low`; computing it always ends.", "quantifier": "all bin axes of at most 2^30 bins with limits that are doubles of moderate size", "why_tests_cant": "Whether the correcting loop ends for all limits and numbers of bins.", "anchors": ["histbook/axis.py:bin.binwidth"]}
{"id": "C108", "title": "selections on a bin axis in double precision", "statement": "With the machine's arithmetic, `select` with a threshold at a published edge of a bin axis is accepted, keeps exactly the bins on the asked side of this edge, and gives an axis that counts new data in the same bins as before; a threshold further from all edges than the tolerance is refused.", "quantifier": "all bin axes of at most 2^30 bins whose limits are doubles of moderate size, all edges, all doubles as thresholds and data, all tolerances", "why_tests_cant": "All doubles near all edges of all axes: rounding errors show only at values that no test list contains.", "anchors": ["histbook/axis.py:bin._select", "histbook/calc/__init__.py:histbook_bin", "histbook/axis.py:bin.keys"]}
{"id": "C109", "title": "sizes, titles and settings of plots and combinations", "statement": "The width, height and title given to a plot are those of the plot in the specification, alone and in every combination, and no plot gets those of another; a setting given with `config` is in effect at the top of the specification, where outer combinations win over inner ones and later plots over earlier ones; other options of combinations are refused.", "quantifier": "all nested combinations of plots with any number of layers, all options and settings", "why_tests_cant": "Combinations nest without bound, and options of one plot leaking into another, or getting lost, show only in particular arrangements.", "anchors": ["histbook/vega.py:Plotable1d._options", "histbook/vega.py:Plotable2d._options", "histbook/vega.py:Combination._options", "histbook/vega.py:Combination.__init__", "histbook/vega.py:overlay._fill", "histbook/vega.py:beside._fill", "histbook/vega.py:below._fill", "histbook/vega.py:grid._fill"]}
{"id": "C110", "title": "scales and titles of the axes of a plot", "statement": "Every axis, colour, column and row of a plot is named after the quantity it shows, and the scale options take effect on their channel and on nothing else: the order of colours stays that of what is shown.", "quantifier": "all chains of channels, all titles and orders, all scale options", "why_tests_cant": "All combinations of channels with scale options; a lost order is not an error.", "anchors": ["histbook/vega.py:Plotable1d._vegalite", "histbook/vega.py:Plotable2d._vegalite"]}
{"id": "C111", "title": "the text of a plot makes the same plot", "statement": "`repr` of a plotting chain is a Python expression that makes the same histogram (without content) and calls the same plotting methods with the same arguments.", "quantifier": "all histograms, all chains of channels, all options", "why_tests_cant": "The texts must be read back for all axes, orders and options; a test compares a few texts at most.", "anchors": ["histbook/vega.py:PlottingChain.__repr__", "histbook/vega.py:OverlayChannel.__repr__", "histbook/vega.py:StackChannel.__repr__", "histbook/vega.py:BesideChannel.__repr__", "histbook/vega.py:BelowChannel.__repr__", "histbook/vega.py:Terminal1dChannel.__repr__", "histbook/vega.py:Terminal2dChannel.__repr__"]}
{"id": "C112", "title": "names of the columns and levels of exported tables", "statement": "In the record array that `table` or `fraction` returns, and in the data frame that `pandas` returns, every column carries the name of what is in it: `count()`, `effcount()`, the expression of a profile or cut, and `err(...)` of these, with the confidence level where it is not the default; so `record[name]` is that number for every bin. The levels of the index of a data frame carry the expressions of the axes in order.", "quantifier": "all histograms, all fills, all options, all selections of profiles, cuts and confidence levels", "why_tests_cant": "A column that is shifted by one is a well-formed table; the order of columns must agree with the order of names for every combination of options.", "anchors": ["histbook/proj.py:Projectable.table", "histbook/proj.py:Projectable._fraction", "histbook/export.py:Exportable.pandas"]}
{"id": "C113", "title": "boolean data in arithmetic", "statement": "Where an expression uses boolean data as numbers - boolean fields, comparisons, `isnan` and the like - they count as 0 and 1: `a + b + c` is the number of the flags that are set, `a - b` is 1, 0 or -1, whatever the fields are called and in whatever order they are written.", "quantifier": "all expressions, all assignments of booleans and numbers to fields, all rows", "why_tests_cant": "Whether two booleans meet in one NumPy call depends on the sorted names, on which terms cancel and on how the sum is split in halves; examples with one flag, or with the flags and numbers in another order, are right.", "anchors": ["histbook/instr.py:totree", "histbook/calc/__init__.py:library", "histbook/calc/__init__.py:calculate"]}
{"id": "C114", "title": "nothing in an expression is ignored", "statement": "Every part of an expression given to an axis, a weight or a filter either takes part in the computation or makes the expression an error: an expression with a part that histbook does not support (a subscript, an attribute, a conditional expression, a list \u2026) is refused, and every argument of a function counts, also those given by keyword.", "quantifier": "all expressions built from supported and unsupported parts, all rows", "why_tests_cant": "There are infinitely many contexts in which an unsupported part can stand; the error is raised late, by what is left after simplification, so that tests with a single unsupported part pass while other contexts lose it.", "anchors": ["histbook/expr.py:Expr.parse", "histbook/expr.py:RingAlgebraAddLike.collect", "histbook/instr.py:totree"]}
{"id": "C115", "title": "a projected, selected, rebinned or reduced histogram can be filled further", "statement": "Filling the result of project, select, rebin or drop with more data gives, in every bin and column, what the operation gives after the original was filled with all data.", "quantifier": "all histograms, all earlier and later batches of data, all selections, edges, sets of kept axes; exceptions are quantified exactly (which later rows are counted in addition)", "why_tests_cant": "a test fills a derived histogram with a few rows that happen to satisfy the condition; the rows that matter are those the derived histogram no longer knows how to reject", "anchors": ["histbook/proj.py: Projectable.project, Projectable.select, Projectable._selectaxis, Projectable.rebin, Projectable.drop", "histbook/hist.py: Hist.fill, Hist._postfill"]}
{"id": "C116", "title": "a derived histogram has data of its own", "statement": "After h2 is made with h.project, h.select, h.rebin or h.drop, filling h2 leaves every number of h as it is, and filling h leaves every number of h2 as it is.", "quantifier": "all histograms, all programs that led to h (with sharing through sums and copyonfill), all selections, edges and dropped profiles, all later sequences of fills of both", "why_tests_cant": "a test compares two histograms right after the operation; whether an array is shared is seen only when one of the two is filled in place later", "anchors": ["histbook/proj.py: Projectable._selectaxis, Projectable.select, Projectable.drop, Projectable.rebin, Projectable.project", "histbook/axis.py: split._rebinsplit", "histbook/hist.py: Hist.fill, Hist._postfill"]}
{"id": "C117", "title": "labels in plots tell bins apart", "statement": "In a plot, two different bins or groups of an axis never have the same label, and the numbers in a label are the edges of its bin up to rounding of the last written digit, in the order of the edges, with a square bracket exactly where an edge belongs to the bin.", "quantifier": "all edges (rational numbers of any size and sign), all bin, intbin, split and cut axes with any flow bins, all groupbin keys", "why_tests_cant": "a test compares the labels of some axis with small round numbers; whether labels collide depends on the ratio between width and position of bins, over all numbers", "anchors": ["histbook/axis.py: Interval._num, Interval.__str__", "histbook/vega.py: Plotable1d._data, Plotable2d._data"]}
{"id": "C118", "title": "means and errors of profiles in double precision", "statement": "In a table of a histogram with a profile, the mean of a bin is the mean of the values in it and its error is a number, namely the square root of their variance over their number, both up to rounding in double precision.", "quantifier": "all bin axes, all numbers of batches and rows (up to 2^30 in a bin), all values that are zero or of size at least 2^-200 (and whose squares do not overflow)", "why_tests_cant": "a test fills some values and compares with a tolerance; the subtraction of the square of the mean from the mean of the squares loses all digits for values with a small spread, and whether the result is negative depends on the last bit of every rounding", "anchors": ["histbook/proj.py: Projectable.table", "histbook/hist.py: Hist._postfill (fillblock)", "histbook/axis.py: profile._goals"]}
{"id": "C119", "title": "fractions in double precision", "statement": "A fraction shown for a cut is between 0 and 1 and its error is a number; without weights it is the number next to the exact fraction of the entries in the bin that pass, and it is 0 or 1 only if none or all of them pass; with weights it is the exact fraction up to rounding.", "quantifier": "all bin axes, all numbers of cuts and rows (up to 2^53 without weights; rows and cells up to 2^32 with weights), all weights that are not negative", "why_tests_cant": "a test fills a few rows and compares with a tolerance; that a computed quotient never exceeds 1, in spite of the different orders of summation of numerator and denominator, is a fact about all roundings", "anchors": ["histbook/proj.py: Projectable.fraction, Projectable._fraction", "histbook/proj.py: Projectable.project", "histbook/hist.py: Hist._postfill"]}
{"id": "C120", "title": "functions in expressions are those that were written", "statement": "A function in an expression is the one that its name refers to in Python, whether it is written math.f, numpy.f or through any other chain of attributes, or by its own name; a function that is not supported is refused with an ExpressionError.", "quantifier": "all ways to refer to a function, all Pythons whose modules have the functions that histbook lists", "why_tests_cant": "each of the eighty functions and each way to write it would need a test with values for which similar functions differ; which objects are the same under two names depends on the versions of Python and NumPy", "anchors": ["histbook/expr.py: Expr.parse (resolve), Expr.recognized, _recognize", "histbook/calc/__init__.py: library"]}
{"id": "C121", "title": "rebinning a bin axis in double precision", "statement": "Rebinning a regular axis accepts exactly the edges it publishes, in particular its limits, and gives each new bin the number of values that belong to it, the same as filling a histogram with the new edges; with weights, their sum up to a bounded rounding error.", "quantifier": "all regular axes whose bins are wider than 2^-48 of the largest number involved, all lists of new edges, all batches of up to 2^53 values (doubles, NaN or minus infinity)", "why_tests_cant": "the edges are computed with one formula and the bin of a value with another, so whether both agree depends on every combination of limits, number of bins and value; a test tries a few round numbers", "anchors": ["histbook/proj.py: Projectable.rebin", "histbook/axis.py: bin.split, bin._rebinsplit, split._rebinsplit", "histbook/calc/__init__.py: histbook_bin"]}
{"id": "C122", "title": "filling in parts and adding in double precision", "statement": "However data are divided between histograms that are then added, and in whatever order, unweighted contents are the same exact counts; weighted contents differ from the exact sums only by the rounding of one addition per entry and per level of additions; addition is commutative with empty histograms as zero, and without negative weights no bin of a sum is less than in its parts.", "quantifier": "all regular axes with limits of moderate size, all ways to divide data into batches and histograms and to add these, up to 2^53 entries without weights, all weights that are doubles", "why_tests_cant": "the number of ways to divide and add grows exponentially with the data, and rounding differs in each", "anchors": ["histbook/hist.py: Hist.fill, Hist._postfill", "histbook/hist.py: Hist.__add__"]}
{"id": "C123", "title": "parsed expressions do not depend on the order of writing, types of constants included", "statement": "Two expressions that differ only in the order of the factors of a product or of the conditions of an and or or, or in repeated conditions, are parsed into equal expressions, whatever constants (True, 1, 1.0, strings, sets) occur in them and in whatever order Python goes through a set.", "quantifier": "all expressions with typed constants, all orders of writing, all orders of going through sets", "why_tests_cant": "the result depends on the mutual order of all parts and on hashes; a cycle in the order shows only for particular triples", "anchors": ["histbook/expr.py: Const.__eq__, Const.__lt__", "histbook/expr.py: Call.__lt__, Relation.__lt__", "histbook/expr.py: RingAlgebra.combine", "histbook/expr.py: Logical.__init__"]}
{"id": "C124", "title": "integer columns give the written integers whatever their width", "statement": "For integer columns of any NumPy type, an expression made of sums, differences and products whose result belongs to the type is computed exactly, although intermediate results may overflow and the parser rearranges the expression; and an intbin axis counts every value in the bin that it publishes for it.", "quantifier": "all integer types, all rows, all such expressions, all intbin axes, all values", "why_tests_cant": "overflow shows only for particular values and types, and the rearranged order of the operations differs from the written one", "anchors": ["histbook/calc/__init__.py: calculate, histbook_intbin", "histbook/expr.py: Expr.parse", "histbook/instr.py: totree", "histbook/axis.py: intbin._goals"]}
{"id": "C125", "title": "quantities filled together do not influence each other, whatever the types of their constants", "statement": "The value that one expression has in a fill does not depend on which other expressions the histogram or book contains, nor on their order; in particular x + 1 and x + 1.0, which compare equal, each have the value that they have alone.", "quantifier": "all sets of expressions in one fill, all orders, all integer and floating point columns", "why_tests_cant": "the result depends on the combination of histograms in a book and on the order in which their expressions are visited, which is that of a hash table", "anchors": ["histbook/instr.py: CallGraphNode.grow, CallGraphNode.__eq__", "histbook/expr.py: Const.__eq__, Call.__eq__", "histbook/fill.py: Fillable._fill"]}
{"id": "C126", "title": "a refused expression is quoted as it was written", "statement": "When an expression is refused with an ExpressionError, the message quotes the part that is to blame: the quoted text, read by Python, is a part of what was written, and it is a part that is refused where it stands.", "quantifier": "all expressions that are refused (comparisons and logic inside arithmetic, unknown functions, 'in' without a set), all syntax trees of expressions, Python before and since 3.8", "why_tests_cant": "the text of a syntax tree goes through a separate unparser with a case for every kind of node; a test sees the message for a few expressions and does not read it back", "anchors": ["histbook/expr.py: Expr.parse", "histbook/util/astunparse.py: tostring, Unparser.dispatch, Unparser._Compare, Unparser._BoolOp, Unparser._Call, Unparser._Lambda"]}
{"id": "C127", "title": "derived histograms of sums and multiples", "statement": "Selecting bins or groups, rebinning, dropping profiles and projecting commute with the sum of histograms and with multiples: it makes no difference whether two histograms are added first and the result is cut, rebinned or projected, or each is cut, rebinned or projected first and the results are added; and if one of these is refused, it is refused for all three.", "quantifier": "all histogram definitions, all contents as filled or derived, all comparisons and edges, all lists of kept axes and profiles, all factors", "why_tests_cant": "merging and deriving walk the nested content with different code; a test compares a few sums of histograms with the same groups", "anchors": ["histbook/hist.py: Hist.__add__, Hist.__mul__", "histbook/proj.py: Projectable.select, Projectable.rebin, Projectable.project, Projectable.drop"]}
{"id": "C128", "title": "operations on different axes may be done in any order", "statement": "Selections and rebinning on different axes, selections of groups and dropping of profiles may be done in any order, with the same definition and content as the result; and the two ends of a range on one bin axis may be selected in either order.", "quantifier": "all histogram definitions, all contents, all pairs of operations on different axes, all pairs of selections of groups, all pairs of edges of a bin axis", "why_tests_cant": "each operation rewrites the axes and all arrays; a test tries one order", "anchors": ["histbook/proj.py: Projectable.select, Projectable.rebin, Projectable.drop, Projectable._selectaxis", "histbook/axis.py: bin._select, groupby._select, groupbin._select"]}
{"id": "C129", "title": "walking through a table with the items of axes", "statement": "Looping over `axis.items(...)` of one axis after the other takes the table of a histogram apart correctly: each row that is reached has one label for each axis, and its numbers are those of exactly the data whose values are what the labels say; every entry that is counted is described by exactly one row. Groups come in the order of their keys, each once; something that does not have one element for each bin is refused.", "quantifier": "all histograms with any axes, all data, all columns of tables, all dicts of groups", "why_tests_cant": "pairing labels with array elements goes wrong by one bin, by an unsorted key or by a wrong end of an interval without any exception; a test looks at a few labels of one axis", "anchors": ["histbook/axis.py: FixedAxis.items, groupby.items, groupby.keys, groupbin.items, groupbin.keys, bin.keys, split.keys, intbin.keys, cut.keys", "histbook/proj.py: Projectable.table"]}
{"id": "C130", "title": "a selection and the opposite selection share out the entries", "statement": "Selecting with a comparison and with the opposite one (`x < v` and `x >= v`, `c == True` and `c != True`, `g in (..)` and `g not in (..)`) loses nothing and counts nothing twice: for every group and all bins of the other axes, the entries of the two results, and those of the bin for NaN, add up to the entries of the histogram; every group is in exactly one of the two. If only one of the two is accepted, it has everything.", "quantifier": "all histograms, all contents, all axes and thresholds, all comparisons, all columns", "why_tests_cant": "an overlap or a gap of one bin between the two sides of a cut shows only if the two sides are added up again; tests look at one side", "anchors": ["histbook/proj.py: Projectable.select, _select, _selectaxis", "histbook/axis.py: bin._select, split._select, intbin._select, cut._select, groupby._select, groupbin._select"]}
{"id": "C131", "title": "repeating a selection changes nothing", "statement": "The same selection can be made again on its result, and gives the result again, with the same axes and the same entries.", "quantifier": "all histograms, all contents, all axes, all accepted comparisons, all conditions about group axes", "why_tests_cant": "code that narrows a plot step by step repeats conditions; a second cut that shifts a bin or raises is only met on the result of a first one, which tests do not cut again", "anchors": ["histbook/proj.py: Projectable.select, _select, _selectaxis", "histbook/axis.py: bin._select, split._select, intbin._select, cut._select, groupby._select, groupbin._select"]}
{"id": "C132", "title": "rebinning in steps", "statement": "Rebinning to some edges and then to fewer of them is rebinning to the last edges at once: it is accepted or refused in the same cases, with the same exception, and gives the same axis, the same groups and the same entries. Rebinning to the edges the axis has changes no entry. Rebinning keeps the sum of the entries along the axis, if what lies outside the new edges has a flow bin to go to or no edge at that end is dropped.", "quantifier": "all histograms, all contents, all rebinnable axes with all choices of flow bins, all lists of edges", "why_tests_cant": "analyses coarsen step by step; whether the flow bins collect what the first step already moved into them shows only when two rebinnings are chained, and tests rebin once", "anchors": ["histbook/proj.py: Projectable.rebin, rebinby", "histbook/axis.py: bin._rebinsplit, intbin._rebinsplit, split._rebinsplit"]}
{"id": "C133", "title": "missing values in Spark data", "statement": "A missing value (null) in a DataFrame is treated like NaN in arrays: on an axis the row is counted in the bin for NaN, if there is one, and a cut is not passed; a row without weight contributes nothing; a missing value of a profile does not influence the mean of its bin; and no other bin is influenced.", "quantifier": "all histograms, all rows with missing values in any place, any order of the results of Spark", "why_tests_cant": "nulls come from joins and from optional columns of real data; each kind of axis, the weight and the profiles handle them in another line of code and by other rules of Spark, and the project has no tests with Spark at all", "anchors": ["histbook/calc/spark.py: fillspark, wait, recurse, getornew", "histbook/hist.py: Hist.fill"]}
{"id": "C134", "title": "errors of bins in double precision", "statement": "The error that a table shows for a bin is, up to rounding, the square root of the number of its entries, or with weights of the sum of the squares of their weights: it is the nearest double where the number of entries is known exactly, k^2 entries have exactly the error k, further entries never make it smaller, weights of 1 give the same as no weights, and a bin with a content that is not zero has an error that is not zero.", "quantifier": "all bin axes without overflow in their limits, all batches of values and weights", "why_tests_cant": "the error is a root of a sum of rounded squares, and how far it is from the exact one depends on every weight and on the number of rows; a test compares a few rounded numbers with a tolerance", "anchors": ["histbook/proj.py: Projectable.table", "histbook/hist.py: Hist.fill", "histbook/axis.py: bin"]}
{"id": "C135", "title": "an in-place addition that raises leaves the histogram as it was", "statement": "If `a += b` raises an exception, a has the groups and numbers that it had before.", "quantifier": "all histograms with the same axes, all kinds of weights, all fills of both", "why_tests_cant": "Whether something has been added before the exception depends on which groups both have, at which depth, and in which order they came; tests of `+=` use histograms that can be added.", "anchors": ["histbook/hist.py: Hist.__iadd__"]}
