{
 "C01": [
  "`listmap`, `listmap` with ignore_unmappable (la/flabel.py:10-84)",
  "List induction; dictionary lookup characterised by `idxOf?` of the last occurrence."
 ],
 "C02": [
  "`listmap_fill` (la/flabel.py:87-160)",
  "List induction with the fill count as invariant."
 ],
 "C03": [
  "both loops, la/flabel.py and la/src/cflabel.pyx",
  "Loop invariant on the partial result; equality of results and exceptions."
 ],
 "C04": [
  "`flattenlabel` (la/flabel.py:162-184)",
  "Induction on the label lists against the row/column-major enumeration of `Spec`."
 ],
 "C05": [
  "`list2index` (la/flabel.py:186-)",
  "Sorted duplicate-free list of the values, by `mergeSort` facts."
 ],
 "C06": [
  "`larry.__init__` (la/deflarry.py:21-140)",
  "Case analysis on the checks; iff with `ValidLabels`."
 ],
 "C07": [
  "`larry.get` (2174-2209)",
  "Uniqueness of `At` under no duplicates."
 ],
 "C08": [
  "`larry.set` (2127-2172)",
  "Pointwise; histories by induction over the list of calls."
 ],
 "C09": [
  "`__add__` … `__or__`, `__align` (646-1067)",
  "The morph calculus on every axis with the inner join of the label lists."
 ],
 "C10": [
  "same",
  "Symmetry of the join; permutation-invariance under set order."
 ],
 "C11": [
  "`__eq__` … `__compare` (1661-1727)",
  "As C09."
 ],
 "C12": [
  "the same methods with ndarrays and scalars",
  "Broadcast rule; a witness for the larger shape."
 ],
 "C13": [
  "`morph` (3289-3361)",
  "`listmap_fill`, take and fill composed; dtype by cases."
 ],
 "C14": [
  "`morph`",
  "From C13 by uniqueness of labelled values."
 ],
 "C15": [
  "`morph_like` (3363-3420)",
  "Induction over axes with an invariant on the axes done."
 ],
 "C16": [
  "`align_raw`, `align` (la/flarry.py:18-377)",
  "Invariant of the loop over axes; each axis by its join; failing axes characterised by `AxisFails`. The first failing axis decides the exception (`FirstRaises`)."
 ],
 "C17": [
  "same",
  "Dtype tracked through the loop."
 ],
 "C18": [
  "`align_axis` (379-520)",
  "Fold invariant; the axis actually read is a separate definition `axesRead`."
 ],
 "C19": [
  "`union`, `intersection` (570-653)",
  "Set facts and sortedness."
 ],
 "C20": [
  "`merge` (la/deflarry.py:3422-3503)",
  "Morph to the union, then pointwise putmask."
 ],
 "C21": [
  "`merge`",
  "From C20."
 ],
 "C22": [
  "`binaryop` (la/flarry.py:655-788)",
  "C16 followed by pointwise fills."
 ],
 "C23": [
  "`Heap.lean`: `HM` monad over cells (buffers, lists, objects), methods as programs",
  "Locality logic (a program touches only what it can reach), separation of reachable sets, refinement to the value model, induction over sequences of actions."
 ],
 "C24": [
  "`sortaxis` (3613-3700)",
  "`Reindexed` calculus; sort facts."
 ],
 "C25": [
  "`flipaxis` (3702-3778)",
  "`Reindexed` calculus."
 ],
 "C26": [
  "`lag` (3543-3611)",
  "Slices as index maps, integer arithmetic."
 ],
 "C27": [
  "`T`, `swapaxes` (4198-4284)",
  "Permutation of index lists."
 ],
 "C28": [
  "`flatten` (4286-4334)",
  "Ravel/unravel bijection in both orders."
 ],
 "C29": [
  "`unflatten` (4336-4397), totuples … fromdict (4463-4702)",
  "General `fromlist` theorem (fold of assignments; last wins), round trips from it."
 ],
 "C30": [
  "`panel` (la/flarry.py:1407-1469)",
  "Ravel arithmetic."
 ],
 "C31": [
  "`insertaxis` (4399-4461), `pull` (2306-2367)",
  "Index insertion and removal."
 ],
 "C32": [
  "`squeeze` (3505-3541)",
  "Induction on the shape."
 ],
 "C33": [
  "`__getitem__` (1729-1887), numpy indexing rules in `Index`",
  "Each entry as an index map; position of the advanced axes; orthogonality of one list."
 ],
 "C34": [
  "`take` (1889-1960)",
  "`Reindexed` calculus. Indexing with the list gives the same cells by C33 and C100."
 ],
 "C35": [
  "`Lix.__getitem__`, `slicemaker`, `labels2indices` (5011-5172)",
  "Loop invariant over axes; selection of labels per axis."
 ],
 "C36": [
  "`Lix.__setitem__` (5076-5138)",
  "Rectangular assignment pointwise."
 ],
 "C37": [
  "`__setitem__` (2082-2125)",
  "Pointwise assignment; alignment check."
 ],
 "C38": [
  "`keep_label`, `keep_x` (2396-2535)",
  "Filter facts; vacuum from C39."
 ],
 "C39": [
  "`vacuum` (4000-4060)",
  "Loop over axes, invariant: kept positions are those with a present value."
 ],
 "C40": [
  "`cut_missing` (3931-3989)",
  "Counting present values on a slice."
 ],
 "C41": [
  "`labelindex` (2597-2644)",
  "`idxOf`, greatest position by induction."
 ],
 "C42": [
  "`__reduce` (1461-1492) and its callers",
  "Lines along an axis; reduction as parameter."
 ],
 "C43": [
  "`cumsum`, `cumprod` (293-422)",
  "Prefix induction over exact rationals."
 ],
 "C44": [
  "`prod` (1105-1167)",
  "Fold facts."
 ],
 "C45": [
  "`clip` (424-462) on bool, int and float larrys, with the write-back in the larry's own dtype.",
  "Order facts on `Flt`; truncation toward zero is monotone and fixes whole numbers, so clipping its result again changes nothing; a witness that an int larry can stay below a bound that is not whole."
 ],
 "C46": [
  "`push` (3991-3998, la/farray/normalize.py:201-223)",
  "Loop invariant: last finite value and its position."
 ],
 "C47": [
  "`lastrank` (la/farray/normalize.py:12-124)",
  "Counting smaller and equal values."
 ],
 "C48": [
  "`ranking` (126-199)",
  "Counting; order by monotonicity of counts. The norm 'gaussian' (`GaussLine`) is stated the same way, for any `ndtri` that keeps NaN and increases on (0, 1) (Props/RankGauss.lean)."
 ],
 "C49": [
  "`quantile`, `_quantileraw1d` (225-293)",
  "Bin edges monotone; inverse permutation of argsort."
 ],
 "C50": [
  "`move_func`, loop and strides (la/farray/move.py:127-241)",
  "Address arithmetic in a buffer with offset and strides."
 ],
 "C51": [
  "`movingsum`, `movingsum_forward` (243-337)",
  "Differences of prefix sums."
 ],
 "C52": [
  "`demean`, `demedian`, `zscore` (la/farray/normalize.py:295-388)",
  "Sums over lines of rationals."
 ],
 "C53": [
  "la/farray/group.py, `_group_align`",
  "Invariant over the loop of groups; groups partition the positions."
 ],
 "C54": [
  "`cross_validation` (la/util/resample.py:6-70)",
  "Slices of a permutation."
 ],
 "C55": [
  "`bootstrap` (72-134)",
  "Set difference."
 ],
 "C56": [
  "`IO` (la/io.py:18-253), save/load/delete",
  "Tree invariant `Archive.WF`; refinement to a dictionary by induction over calls."
 ],
 "C57": [
  "`_list2array`, `_load_label`, date conversions (635-753)",
  "Per-type round trip; calendar bijection."
 ],
 "C58": [
  "`repack` (574-608) as file-system steps",
  "All prefixes of the step list (crash points)."
 ],
 "C59": [
  "`clear` (150-155)",
  "Induction over the keys."
 ],
 "C60": [
  "`lara` (255-370)",
  "h5py selection = numpy selection on increasing lists; C33."
 ],
 "C61": [
  "la/missing.py, `ismissing` (3870-3929)",
  "Cases on dtype."
 ],
 "C62": [
  "`stack` (la/flarry.py:1339-1405)",
  "C18-style joins, then page-wise assignment."
 ],
 "C63": [
  "`sortby` (1701-1767)",
  "`Reindexed` calculus with argsort's contract."
 ],
 "C64": [
  "46 kinds of method calls in `History`",
  "One validity lemma per method; induction over the program."
 ],
 "C65": [
  "`split` (la/util/resample.py:136-)",
  "From C34."
 ],
 "C66": [
  "The label-based calls of `History`",
  "A relation `Reordered` between larrys; one agreement lemma per method, derived from the specifications of the other properties; induction over the program."
 ],
 "C67": [
  "`cov` (la/flarry.py:1471-1502), `covMissing` (la/farray/misc.py:136-160)",
  "Direct computation of the entries; the quadratic form is written as a sum of squares; agreement along `Reordered`."
 ],
 "C68": [
  "`geometric_mean` (la/farray/misc.py:9-35) over the reals with NaN and infinities",
  "Sum of logarithms by induction; log x <= x - 1 for the average."
 ],
 "C69": [
  "`correlation` (la/farray/misc.py:37-134) over the reals with NaN and infinities",
  "Both branches reduced to one ratio of sums; a sum of squares gives Cauchy-Schwarz and its equality case."
 ],
 "C70": [
  "`shuffle`, `shufflelabel` (3819-3866), `shuffle` (la/farray/misc.py:162-182), the loop of np.random.shuffle",
  "One swap of slices and labels changes no labelled value; induction over the loop and the axes; uniqueness from the last position."
 ],
 "C71": [
  "`maxlabel`, `minlabel` (2562-2595), `isaligned` (la/flarry.py:565-568)",
  "Induction over lists; C16 and C09."
 ],
 "C72": [
  "`log`, `exp`, `sqrt`, `sign`, `power` (142-291), `__neg__`, `__pos__`, `abs`, `isnan`, `isfinite`, `isinf`, `invert` (464-637), `nan_replace` (4062-4079), `astype` (4155-4195)",
  "The model's function is compared with a relation `Makes` per method, shown single-valued; cases on dtype and value."
 ],
 "C73": [
  "The 24 calls of `Cmd.Rel`, run by `runAll` (Verif/History.lean)",
  "A relation on values is lifted to arrays and larrys; one lemma per method that related inputs give the same exception or related outputs (Verif/Param*.lean); induction over the program. `g` and units are two choices of R."
 ],
 "C74": [
  "`__add__` to `__rmul__` (646-954) with a scalar or array; numpy's add, subtract, multiply, divide, true_divide, floor_divide on bool, int, float (Verif/Arith.lean)",
  "Plus, times, over and floor on numbers are specified by relations shown equal to the model's functions; then cases on dtypes and C12's broadcasting."
 ],
 "C75": [
  "`__add__`, `__mul__` between larrys (646-690, 910-954), `__align` (1725-1751)",
  "Induction over the expression with C09: labels of an axis are the common list if all agree, else the sorted intersection of all; values are totals in a commutative semigroup (Mathlib's `WithOne` product, invariant under permutation)."
 ],
 "C76": [
  "`tocsv`, `fromcsv` (4750-4756, 4824-4829), `fromtuples` on rows of text (4550-4558), Python's csv writer and reader, lines of text files",
  "Invariant of the reader's state machine over characters: after an encoded field it is in a state that saves exactly that field at a delimiter or line end; induction over fields, rows and files. Universal newlines commute with the encoding. The values then follow from C28 and C29."
 ],
 "C77": [
  "`lrange`, `empty`, `ones`, `zeros` (la/flarry.py:1844-2088), `rand`, `randn` (1585-1601, 1683-1699)",
  "The length of `arange` by exact rational arithmetic; reshape by row-major positions, which are distinct (C28); the constructor by C06."
 ],
 "C78": [
  "Every method and function of the command language of C56 (`Cmd`, 46 calls), through their existing models",
  "For each list primitive and each method an equation: the method on renamed arguments is the renamed result (Verif/Rename*.lean); induction over the program. No new labels: run the program over the subtype of the set and rename by the inclusion."
 ],
 "C79": [
  "larry.tofile: the dimension check, the lines, `delimiter.join`, opening a named file or writing to a file object",
  "Python's str.split as a separate function; splitting inverts joining by induction over the fields and over the lines; lookups in the table are then list indexing."
 ],
 "C80": [
  "The memory model of C23 (Verif/Heap.lean) with all its methods; programs are lists of its steps",
  "Two program logics over the memory model: `Safe` (which cells a call touches) and `Good` (Verif/HeapOwn.lean: lists of lists without repetition, arrays that show each cell once). Simulation: each step preserves the relation between references with pairwise disjoint footprints and a store of values; induction over the program."
 ],
 "C81": [
  "`split`, `parse_yahoo_historical`, `quotes_historical_yahoo`, `quotes` with its loop, the in-place adjustment and the final slice (Verif/Yahoo.lean), on the modelled larry constructor, insertaxis, merge, sortaxis and indexing",
  "`Carry` relates lines to days; the loop over tickers by induction with the invariant `Loaded`, each step by C20 (merge); then C24 (sortaxis), cell by cell for the adjustment, C33 for the slice. Order independence because the table determines the larry."
 ],
 "C82": [
  "The existing models of ranking, lastrank, quantile, group_ranking, push, clip, keep_x and vacuum, run on two larrys related by f.",
  "Each line function is shown to look at its numbers only through comparisons (lt, eq, isNan, isFinite), then lifted to larrys through the lines of the array; reversal by counting: less + equal + greater = number of non-NaN values."
 ],
 "C83": [
  "The existing models of demean, zscore, movingsum_forward, cumsum, group_mean, group_median and cov, run on two larrys related by a*v + b in float arithmetic.",
  "a*x + b commutes with float addition and subtraction (offsets add), with division by a count and with multiplication by a positive number; the running sums and counts of movingsum are paired and carried through cumulation and differencing by a homomorphism lemma."
 ],
 "C84": [
  "Verif/ReduceMethods.lean: sum, max, min, any, all as __reduce with the functions of Bottleneck and Numpy written out; prod as in C44; cumsum as in C43. The specification is the inductive set of values one can arrive at.",
  "The elements of an array are a permutation of its lines along any axis (from the enumeration of positions); a fold of a commutative and associative operation that skips NaN and never produces it can be taken in parts; induction on the way the total was arrived at. The last of a running sum is the fold of the whole line."
 ],
 "C85": [
  "lastrank as in C47 and ranking as in C48; the condition on a line is stated with the values of the line only.",
  "For one line the two results are fractions with the number of finite and of non-NaN values; they are equal exactly under the condition, by counting. Lifted to the cells by the characterisation of reductions (C42) and of ranking."
 ],
 "C86": [
  "ranking, demean, zscore, keep_x, keep_label, morph_like, squeeze and merge as modelled for the earlier properties.",
  "The ranks keep order, ties and NaN of a line, so that ranking them counts the same; a centre that moves along becomes 0 and a spread becomes 1; the label methods by applying their characterisations twice. Along an axis, the lines of the result are the images of the lines."
 ],
 "C87": [
  "assert_iscopy, assert_isview, noreference, nocopy and the larry branch of assert_larry_equal on the memory model of C23; an assertion returns the list of its complaints.",
  "What the two larrys refer to are two disjoint closed parts of the memory; a step by one side stays in its part and new memory, by induction over the steps. Copies pass because all their parts are new (C23). Equality position by position is equality name by name, and the comparison of elements is decided by cases on the dtype."
 ],
 "C88": [
  "__repr__ line by line, with the choice of the labels shown.",
  "The text is read back uniquely: it is split into lines, headings start with l, labels with a space, and the first line x ends the labels; by induction over lines and axes."
 ],
 "C89": [
  "indent with Python 2's map(None, ...), including what it does to a single sequence, and IO.__repr__ on the archive of C56.",
  "The physical rows are computed explicitly, widths are maxima over columns, and lines are joined cells of exactly those widths. A listing is read back from the places of the column names in its first line; then cell by cell."
 ],
 "C90": [
  "The three functions; the regular expression as maximal runs of characters that are not white space.",
  "Invariants of the fold over the words on the list of lines so far; a run-length predicate for the strict version."
 ],
 "C91": [
  "The functions of Bottleneck and Numpy that the methods hand to __reduce (C42), as functions on lists of extended numbers.",
  "Sums by induction over the four kinds of lines (NaN only, finite, one infinity, both); the median by sortedness of insertion sort; extremes by an invariant of the fold; then C42 for every axis."
 ],
 "C92": [
  "The methods as modelled for C42, C44 and C46-C52; an enumeration of the calls with arguments.",
  "A method along an axis is a function of the line (Along with a functional relation); the lines of the part are lines of the whole by the definition of a part; then labels name the same cells on both sides."
 ],
 "C93": [
  "lara.__setitem__ with scalars, larrys and boolean larrys; the positions h5py writes to; the write of one dataset.",
  "An archive that differs in the elements of one dataset has the same labels, keys and laras (OneArray). The positions h5py selects are those numpy selects, so the assignment is the one of C37. The representation invariant of C56 is kept by a write, which gives the refinement of a dictionary by induction over the calls."
 ],
 "C94": [
  "IO.items, values, iterkeys, itervalues, iteritems, has_key, __iter__; loops as a fold that stops at the first exception.",
  "The representation invariant of C56/C93 is carried through the loop by induction over the list of keys; a call depends on and changes what is under its own key only."
 ],
 "C95": [
  "`&`, `|` and the six comparison operators on numbers (`Formula.lean`: `RelOp`, `LogicOp`, `BinOp`), scalars on either side with the reflected methods, and expression trees with Python's left-to-right evaluation (`Formula.eval`).",
  "Induction on the typing of the tree (`eval_formula`): labels by joining the inner joins of the operands (`AllInner.join`), cells by the pointwise theorems for one operator (C09, C11, C72, C74). The specification is a relation `Gives` between the numbers in one cell and the value of the tree, with no arrays and no labels in it; it has at most one value (`Gives.unique`). `C95_same` transfers any law between numbers to larrys; the laws listed follow from it. `C95_assign` adds C37."
 ],
 "C96": [
  "`la.add`, `la.subtract`, `la.multiply`, `la.divide` as calls of the model of `binaryop` (`FlarryArith.lean`); expression trees of such calls with an outer join.",
  "`C96_operator` compares C22 with C09 cell by cell. `C96_outer`: induction on the tree with the invariant that a cell holds the total of the numbers present in the leaves (`pair_cell` is the monoid law for 'missing or a number'), labels by joining outer joins (`AllOuter.join`). `C96_any_order` follows because list sums, products and `AllOuter` do not see order."
 ],
 "C97": [
  "`move_func` with a reduction, `move_median`, `move_ranking` (`Moving.lean`) on top of the memory model of C50; compared with the models of `take`, `lag`, `median`, `lastrank`, `movingsum_forward`.",
  "C50 gives the value as a function of the window of a line; `window_part` shows that the larry `take` returns has exactly that window as its line, so C42 gives the same value. The lag theorems compare windows of the two lines; `nansum_window` evaluates `bn.nansum` on a window for C51."
 ],
 "C98": [
  "Trees of calls of the model of `merge` of C20.",
  "Induction over the tree with the invariant `MergedFrom`: labels are the outer join of those of all larrys, present values are the `Newest`. C20 gives one step. The corollaries follow since labels, dtype and values determine a larry."
 ],
 "C99": [
  "`Verif/HeapMore.lean`: the calls on references, with the memory model of C23; a program may use all steps of C23 and all these calls.",
  "Independence as in C23: a call is run with the addresses it may touch as an invariant (`Safe`), and two parts of a program that refer to disjoint parts of the memory stay apart (`Apart.run`). Values: every call refines the function on values (`Yields`, Verif/HeapMoreRun.lean)."
 ],
 "C100": [
  "The model's own take, flipaxis, sortaxis, keepLabel, morph, lag, maplabel and getitem; `MovedBy` says by names what such a call leaves: each line comes from a line of the old larry or from nowhere.",
  "C100_each derives `MovedBy` for each call; C100_commute composes two of them on different axes and compares names, dtypes and markers; C100_regroup is by induction over the program, putting a call off until before the next call on its axis."
 ],
 "C101": [
  "`unique` and the steps of `np.unique` (Verif/Unique.lean): argsort, the flags of elements that differ from the one in front, the selection by flags, the running count and the inverse permutation.",
  "By induction over the sorted list: kept elements increase strictly until the NaNs, the running count finds each value among those kept, NaNs are all kept; C28 turns positions into names. C101_determined: two lists with these clauses are permutations of each other and both in order, so equal."
 ],
 "C102": [
  "`Larry.groupBy` with the three group methods (Verif/Group.lean), `morph`, `ranking`, `mean`, `median` of the part.",
  "groupBy_spec of C53 gives the cell as the method's value on the members of the group; `group_places` shows labels and members of a group sit at the same places, so the line of the part is the list of members (`group_part_line`). The rest follows cell by cell; C102_twice also uses that each method on a line is idempotent."
 ],
 "C103": [
  "Files, open handles and their modes; `_openfile`, `h5py.File`, `close`, and every function of la/io.py that uses them as steps `Files → Files × outcome` (Verif/Files.lean).",
  "Each body acts on the content as the function of Verif/IO.lean (`Acts`, closed under sequencing); opening and closing around it gives `DoesTo`: outcome, content and number of files left. Induction over the loop of `clear` and over programs. For locked files an invariant (`Locked`, `Keeps`) kept by every step."
 ],
 "C104": [
  "The reductions, moving functions, `cumsum` and `clip` already modelled (C43, C45, C91, C97).",
  "Order on floats with NaN (`AtMost`, `NotAbove`); pointwise comparison of two lists of floats gives comparison of sums, means, sorted lists (hence medians), maxima and minima by induction; lifted to lines of labelled larrys. Variance: sum of squares is nonnegative and zero iff all are equal."
 ],
 "C105": [
  "The programs of C23 and C99 on references, where what was written before an exception stays written; `maplabel` with a function that may raise (Verif/MapTry.lean); the calls on archives of C103.",
  "A rule for sequences: what comes before the last point that can raise writes to nothing that was there (`Frame`), what comes after cannot raise (`Never`); applied to every call. `maplabel` in place: induction on the axes left. Archives: by cases on the call, lifted to files by C103."
 ],
 "C106": [
  "The programs of C64 (`Cmd`, `runAll`) over the methods of the model; two runs are compared with `Larry.Until`: same labels, same dtype, same values in the cells without later labels.",
  "One lemma per method, from its specification by labels (C01-C53) or from its line function: a line function that at each place depends on the elements up to there only (`Causal`: running sums, push, moving windows, by induction on the line) respects `Until` along an axis in time order; any line function does along an axis that is not the time axis. Then induction on the program. Instances evaluated by the kernel show the conditions are needed."
 ],
 "C107": [
  "`MoveBn.lean`: the loop of `bn.move_nansum` and `bn.move_nanmean` with its running sum and count (`addIn`, `subOut`, `runWindow`), the windows of `bn.move_nanmin`, `bn.move_nanmax` and `bn.move_nanstd` by contract, and the five larry methods.",
  "Induction over the elements that come in, with the invariant that the running state is the sum and count of the window (`runWindow_get`), kept as long as what leaves is finite; a second invariant, that an infinity in the window has turned the sum into itself or NaN, gives NaN for good after it has left (`runWindow_after`). From there to larrys by lines; equality with `move_func` by C50, with `movingsum_forward` by C51 and C25."
 ],
 "C108": [
  "The program model of C64 (`History.lean`). `Before.lean`: the relation between a larry and the larry without the later labels; `BeforeAxes.lean` and `BeforeLines.lean`: one lemma for each method that the relation is kept.",
  "Relational proof over two runs whose arrays differ in shape: each method is taken through its own specification theorem (joins C09 to C16, reindexing C05, axes C24 to C38, lines C43 to C53, stack C62, moving windows C50 and C107), so that only labels and values by label are compared. For methods along a line, the line of the first run is the beginning (or, reversed, the end) of the line of the second, and the result on it is the beginning of the result (`PrefixCausal`). Programs by induction over the calls (`C108_step`, `C108_program`); uniqueness of the cut larry (`C108_unique`) turns this into the commuting law for `keep_label`. Witnesses show six conditions to be needed."
 ],
 "C109": [
  "`cumsum`, `cumprod` (`Numeric.lean`), `lag`, `binop` with `np.add`, `np.subtract`, `np.divide` (`Arith.lean`), `moveSum` (`MoveBn.lean`).",
  "The specifications of the methods are composed: C26 for the lag, C09 for the operation of two larrys (`lag_op₂`: labels and values of `x op y.lag(k)`), C43 for running totals, C107 for the moving sum. What remains is about one line of numbers: a window is a difference of two initial segments, and sums and products telescope, by induction on the position. A witness for labels that are not ascending."
 ],
 "C110": [
  "The language of programs (`History.lean`) and every method in it.",
  "Relational proof over two runs. For most calls it is an instance of the theorems that relate two runs with the relation on values that is always true (C73's `_rel` lemmas) or of C106 with every label a later one; ranking, quantile, demean, zscore, prod, the group methods, keep_x and the assignments have proofs of their own. Programs by induction, with the invariant of C64. `outcomes` lists which call raises what. Witnesses for the calls that do read values."
 ],
 "C111": [
  "`np.issubdtype` on numpy's scalar types, `isint`, `isfloat`, `isscalar`, `isstring`, the dispatch of `__getitem__` and `lix` on the type of the index, `int()` (`Objects.lean`).",
  "Case analysis on the types; the integer part is characterised by inequalities and unique; a relation `Means` between objects and the indices of C33, shown to be a function, and equality of the calls. Three bools: two of them are equal, so a label is repeated."
 ],
 "C112": [
  "The calls of C92 and C100, `__reduce`, `prod`, `move_func`, the elementwise methods, the operators, `T` and `swapaxes`.",
  "Orders of axes are permutations of `0 … n-1`; a relation `Turned` between a larry and the larry with its axes in that order, stated with names only. Lines along an axis correspond, hence so do results given line by line; the elements are a permutation of each other; programs by induction on the calls."
 ],
 "C113": [
  "`Operand`: the tests on the type of the operand in every operator method, `np.isscalar`, the reflected methods and Python's choice of the method, numpy's False for `==` of shapes that do not match.",
  "An inductive relation says which operands offer which numbers to which operator. Broadcasting fails exactly if some axis, counted from the last, has two lengths that differ and are not 1, and keeps the shape exactly if the array fits; then the reading lemma of C74 for every operator, and a case analysis of the exceptions."
 ],
 "C114": [
  "`TestingAny`: the checks of the arguments, the three branches, the comparison of scalars, the headings and the message.",
  "Case analysis over the kinds of objects; the numbers by the cases of finite, infinite and NaN; the message by induction over its characters (taking the tabs away undoes the indentation) and over the complaints."
 ],
 "C115": [
  "The reductions of `Reduce`, `ReduceMethods` and `Stats`, the moving functions of `Moving` and `MoveBn`, the operators with a number of `Arith`; nothing new.",
  "Each statistic is determined by its specification of C91 (sums, means and variances by cases, the median through the uniqueness of the ordered list, the extremes through antisymmetry), and each specification goes through a*v + b, reversing the order if a < 0; then lines, windows and larrys as in C83 and C107."
 ],
 "C116": [
  "`Store`: `set`, `__setitem__`, `lix` assignment and `fill` with the conversion of the value to the dtype of the array; the rest as in C08, C36, C37.",
  "The conversion meets its specification by cases on the dtype (truncation through floor and ceiling, as in C45); C08, C36 and C37 with the converted value; the history by induction on the calls."
 ],
 "C117": [
  "Nothing new; `WithEmpty` says of two larrys, by their labels and cells, that one is the other with empty labels added.",
  "The values of a line that are not NaN are a permutation (with the order kept: the same list) of those of the longer line; every statistic is shown to depend on those only; induction over the chain of calls; `morph` from C13, `align` from C16 and C17, `vacuum` from C39, the operators from C09."
 ],
 "C118": [
  "Nothing new; `SameNums` says of two larrys, by their labels and cells, that they have the same numbers in the same cells.",
  "Every reduction of a line is shown to depend on the numbers in it alone (products and running products of ints via casts to the rationals); the methods that work line by line follow; the elementwise methods and operators from the specifications of C72, C74 and C95, in which the dtype enters only in the named cases; formulas by induction, with the invariant that bool results are bool for both."
 ],
 "C119": [
  "Nothing new; `Value` gives the value of an expression for rational numbers, independently of the model.",
  "By induction over the expression its cells have the value of the expression where all larrys are finite and NaN where one is NaN; labels, success and cells from C95."
 ],
 "C120": [
  "Nothing new.",
  "The relation 'both numbers or both NaN' is kept by every call: by C73's relation for moves, arithmetic, merge and reductions, by induction over the line (with the running state for moving windows) for the methods along an axis, by equality of the arrays of finite flags for vacuum and cut_missing; then by induction over the program. Counterexamples for the excluded calls."
 ],
 "C121": [
  "Nothing new.",
  "The relation 'no infinities, and a number wherever the first has one' is kept by every call: that results are numbers or NaN comes from C120; that NaN on the second side means NaN on the first from the specifications of the statistics (C91, C104, C107, C50) on windows and lines, for push by induction with the age of the last number, for merge from its two sides; then by induction over the program. Counterexamples for the excluded calls."
 ],
 "C122": [
  "NegSkip.lean: movingsum for any integer skip: slice bounds, the subtraction and the assignments with numpy's broadcasting of length one and its ValueError.",
  "The slices for -n <= skip <= -window are those for n + skip, so that the two programs agree line by line; in the other cases the lengths of the slices decide. The sums are those of C51. Examples show each case."
 ],
 "C123": [
  "Nothing new.",
  "The value at a label is the centre of the line of the part of the larry that holds its group (C102). The minimum and maximum of that line bound it, and it grows with the line (C104); it moves with the values (C83, C115), so that after subtracting the centre q of the line the new centre is q - q. The parts of the larry and of the difference are compared line by line."
 ],
 "C124": [
  "Nothing new: `stack` (C62), `pull` and `insertaxis` (C31), `morph_like` (C15), the reductions (C42, C44, C91), `la.add` and `la.multiply` (C96), `merge` (C98), `panel` (C30).",
  "A cell of the stack is the `Layer` of its keyword (C62 in one clause); the line along the keywords is the list of layers. The finite numbers of that line are a permutation of the numbers of all larrys under the names, which is what C96 totals. The pages with an inserted axis do not overlap because the keywords differ, so C98 gives the merged cells. Labels are compared as sets and then, if sorted, as lists."
 ],
 "C125": [
  "`SeqLoop`, `SeqFind`, `unpackItems`, `Outcome.bool`, `Larry.between`, `Larry.best`, `Larry.listIndex`, `Larry.listCount` (Verif/Protocol.lean): Python's rules for an object with `__getitem__` and comparisons only, on top of the model of `__getitem__` (C33) and of the operators (C113)",
  "`y[k]` is characterised by C33; the loop and the search are big-step relations, shown to have exactly one outcome by induction on their derivations; the other clauses follow from C113, C11 and induction over the lists. `C125_in_table` and the examples show the surprising answers"
 ],
 "C126": [
  "`objBinop`, `objRight`, `objNeg`, `objLeft` (Verif/ObjectArith.lean): the bodies of the operators over numpy's loop for dtype object, with Python's operators on two objects as a parameter that may raise",
  "an array of results is collected (first exception in C order); cells are identified with labels by the alignment lemmas of C09 and the broadcasting lemmas of C12; `C126_left_sound` gives the algebraic conditions under which the reflected methods are right, `C126_strings` and `C126_dates` cases where they are not"
 ],
 "C127": [
  "no new code: `sum`, `mean`, `var`, `median`, `max`, `min`, `any`, `all` (C91), the elementwise methods (C72) and the operators (C09)",
  "three calls are laid side by side line by line (`compare3_reduce`), which leaves a statement about lists of numbers proved by induction; `C127_add_gaps` and `C127_add_bool` show that the conditions of (3) are needed"
 ],
 "C128": [
  "no new code: the reductions of C91 and the methods that pick labels of C92",
  "the line (or all elements) of the whole is a permutation of the lines of the parts (`two_parts_line`, `parts_vals`), and the functions of bottleneck are described on permuted and appended lists (`pool_sum`, `pool_mean`, `pool_max`, `pool_min`, `pool_any`, `pool_all`); for medians, the number in the middle of a sorted list is compared by counting the smaller and the larger numbers (`sorted_ge`, `sorted_le`, `middle_between`)"
 ],
 "C129": [
  "no new code: `cov` (C67), `demean` (C52), `var` (C91), `correlation` (C69)",
  "`demean(1)` of a table of numbers is the table less the row means (`demean_table`), so `cov` is described by the original numbers (`cov_demeaned`); the sums are expanded; the bound is the discriminant of a sum of squares (`cauchy_list`); rationals are cast to reals for the roots"
 ],
 "C130": [
  "`ranking`, `demean`, `demedian`, `zscore`, `groupRanking`, followed by the reductions of Verif/Stats.lean",
  "Double counting: over all values of a line, as many are below as above, so the ranks average to the middle (`rank_sum`). Demeaned and z-scored lines are the line in other units, through which mean, median and variance move (C83). Groups by C102."
 ],
 "C131": [
  "`bn.nanstd`, `demean` and `zscore` of la/farray/normalize.py over the reals with NaN and infinities, with the broadcast of the reduced array (Verif/RealScore.lean)",
  "A line becomes its list of numbers; level and unit of z-scores are solved for from the two sums, which gives uniqueness and with it the invariances; the bound is Cauchy-Schwarz with one number left out; correlation through C69."
 ],
 "C132": [
  "`log`, `exp`, `sqrt`, `sum`, `prod`, `mean`, `cumsum`, `cumprod` of the arrays over the reals with NaN and infinities (Verif/RealLog.lean)",
  "`exp` takes addition of floats to multiplication, infinities and NaN included, and is one-to-one onto the floats that are not negative; sums and products are the same fold on both sides."
 ],
 "C133": [
  "both models: `mean`, `sum`, `prod`, `var`, `std`, `demean`, `zscore`, `cumsum`, `cumprod` of larrys with rational numbers and of arrays with real numbers",
  "The embedding of the rational floats in the real ones commutes with the arithmetic, infinities included, hence with folds over lines; lines of the larry are lines of its array."
 ],
 "C134": [
  "`mean`, `median` and `var` of larrys (Verif/Stats.lean)",
  "From C91: the sum of squares about any number is that about the mean plus n times the squared difference; moving away from the median loses a step for at most half of the numbers; Cauchy's inequality by induction over the line."
 ],
 "C135": [
  "`group_mean` (Verif/Group.lean), subtraction (Verif/Arith.lean), `mean` and `var` (Verif/Stats.lean)",
  "C53 gives the group means of a line; weights that are constant on the groups give numbers and group means the same weighted sum (exchange of sums), used with weight 1 and with the group mean itself; C91 turns the sums into mean and var."
 ]
}