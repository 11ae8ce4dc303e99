{"id": "C01", "title": "listmap returns indices that reproduce the target list", "statement": "For any two lists, listmap(list1, list2) either raises KeyError, exactly when some element of list2 is not in list1, or returns idx of length len(list2) with list1[idx[k]] == list2[k] for every k. With ignore_unmappable=True it never raises and [list1[i] for i in idx] is list2 with the elements that are not in list1 dropped, in order.", "quantifier": "all lists list1, list2 of hashable elements (duplicates allowed)", "why_tests_cant": "The claim is over every pair of lists, including duplicates; tests sample a handful.", "anchors": ["la/flabel.py: listmap", "la/src/cflabel.pyx: listmap"]}
{"id": "C02", "title": "listmap_fill separates mapped from unmappable positions exactly", "statement": "listmap_fill(list1, list2, fill) returns (index, missing) where len(index)==len(list2), missing is the strictly increasing list of exactly the positions k with list2[k] not in list1, index[k]==fill at those positions and list1[index[k]]==list2[k] at all others.", "quantifier": "all lists and fill values", "why_tests_cant": "Universally quantified over lists.", "anchors": ["la/flabel.py: listmap_fill", "la/src/cflabel.pyx: listmap_fill"]}
{"id": "C03", "title": "The C (Cython) and pure Python label mappers are interchangeable", "statement": "listmap and listmap_fill as written in cflabel.pyx and as written in flabel.py return the same result (or the same exception) on every input, so results do not depend on whether the extension compiled.", "quantifier": "all lists, both flag values, all fills", "why_tests_cant": "Program equivalence over all inputs.", "anchors": ["la/flabel.py", "la/src/cflabel.pyx"]}
{"id": "C04", "title": "flattenlabel enumerates label tuples in array order", "statement": "flattenlabel(label, order) lists every combination of one label per axis; the combination at position p is the one whose axis indices are the row-major (order='C') or column-major (order='F') coordinates of p in an array with those axis lengths. Any other order raises ValueError.", "quantifier": "all label lists of any dimension and size, both orders", "why_tests_cant": "Any number of axes and any axis length.", "anchors": ["la/flabel.py: flattenlabel"]}
{"id": "C05", "title": "list2index factors a list through its sorted set of values", "statement": "list2index(L) returns (idx, uL) with uL strictly increasing, containing exactly the elements of L, and uL[idx[k]] == L[k] for all k.", "quantifier": "all lists over a totally ordered type", "why_tests_cant": "All lists.", "anchors": ["la/flabel.py: list2index"]}
{"id": "C06", "title": "The larry constructor accepts exactly the well-formed label/data pairs", "statement": "larry(x, label) with validation raises ValueError unless x has at least one dimension, there is one label list per dimension, each label list has exactly the axis length and no duplicates; when it does not raise the larry stores exactly that data and label. With label=None the labels are range(n) on each axis and validation succeeds whenever x is at least 1d.", "quantifier": "all arrays and all label arguments", "why_tests_cant": "All shapes/dimensions/labels.", "anchors": ["la/deflarry.py: larry.__init__"]}
{"id": "C07", "title": "get by label reads the unique cell carrying those labels", "statement": "On a valid larry, get(names) returns the value stored at the one position whose label on every axis is the corresponding name; it raises ValueError iff the number of names is not ndim and otherwise IndexError iff some name is not a label of its axis.", "quantifier": "all valid larrys and all name lists", "why_tests_cant": "All larrys of every dimension.", "anchors": ["la/deflarry.py: larry.get", "la/deflarry.py: larry.labelindex"]}
{"id": "C08", "title": "set by label is read back and touches no other cell", "statement": "After y.set(names, v) succeeds, y.get(names) returns v (in the dtype of y, see C116), y.get(other) is unchanged for every other label tuple, labels and shape are unchanged, and set succeeds exactly when get would.", "quantifier": "all valid larrys, names, values; also all sequences of set operations (last write wins per cell)", "why_tests_cant": "Arbitrary histories of writes.", "anchors": ["la/deflarry.py: larry.set", "la/deflarry.py: larry.get"]}
{"id": "C09", "title": "Binary operators join by label (inner join)", "statement": "For larrys a and b of equal ndim, a op b (op among + - * / // & |) has as labels on each axis the common label list if the two lists are identical and otherwise the sorted intersection, and (a op b).get(names) equals op(a.get(names), b.get(names)) for every names present in both; names missing from either raise IndexError. Different ndim raises IndexError. Positions in the arrays never matter, only labels.", "quantifier": "all pairs of valid larrys, all elementwise operators", "why_tests_cant": "All labellings/permutations of all shapes.", "anchors": ["la/deflarry.py: larry.__add__/__sub__/__mul__/__truediv__/__floordiv__/__and__/__or__", "la/deflarry.py: larry.__align"]}
{"id": "C10", "title": "Binary operators are symmetric in the labels", "statement": "a op b and b op' a (op' = op with swapped arguments) have the same labels and the same value under every label tuple; in particular + * & | commute. The labels produced do not depend on hash/set iteration order.", "quantifier": "all pairs of valid larrys; all enumeration orders of the label sets", "why_tests_cant": "Quantifies over set iteration orders and all inputs.", "anchors": ["la/deflarry.py: larry.__align", "la/deflarry.py: larry.__add__"]}
{"id": "C11", "title": "Comparisons align like arithmetic", "statement": "a < b (and ==, !=, >, <=, >=) on larrys returns the elementwise comparison on the inner-joined labels, with the same label rule as arithmetic.", "quantifier": "all pairs of valid larrys, all six comparisons", "why_tests_cant": "All inputs.", "anchors": ["la/deflarry.py: larry.__compare"]}
{"id": "C12", "title": "Broadcasting with an ndarray keeps a valid larry only when the shape is unchanged", "statement": "larry op scalar/ndarray returns the elementwise result with the larry's own labels; if numpy broadcasting keeps the larry's shape the result is a valid larry. (The code does not check: an ndarray that broadcasts to a larger shape yields a larry whose labels do not match its data.)", "quantifier": "all larrys, arrays and elementwise operators", "why_tests_cant": "All shapes.", "anchors": ["la/deflarry.py: larry.__add__"]}
{"id": "C13", "title": "morph reindexes one axis by label", "statement": "y.morph(label, axis) raises IndexError for an out-of-range axis or duplicated labels; otherwise the result has `label` on that axis, the other axes unchanged, and get(names) is y's value when names[axis] is an old label and the missing marker when it is new. Values are cast to float exactly when the dtype has no missing marker (int, bool) and the label list differs from the current one and contains a new label or is empty; otherwise the dtype is unchanged.", "quantifier": "all valid larrys, label lists and axes (negative too)", "why_tests_cant": "All label lists.", "anchors": ["la/deflarry.py: larry.morph", "la/missing.py: missing_marker, nans", "la/flabel.py: listmap_fill"]}
{"id": "C14", "title": "morph composes and permutation morphs invert", "statement": "Morphing to a permutation of the labels and then back to the original labels restores the larry exactly (labels, shape, dtype, every value); morphing to l then to l' (both without new labels) is morphing to l'.", "quantifier": "all valid larrys, all permutations/sublists", "why_tests_cant": "All permutations.", "anchors": ["la/deflarry.py: larry.morph"]}
{"id": "C15", "title": "morph_like aligns every axis with the target", "statement": "y.morph_like(z) has exactly z's labels and get(names) equals y.get(names) where names are all labels of y and the missing marker elsewhere; it raises IndexError iff ndim differs.", "quantifier": "all pairs of valid larrys", "why_tests_cant": "All inputs.", "anchors": ["la/deflarry.py: larry.morph_like"]}
{"id": "C16", "title": "align implements inner/outer/left/right/skip joins per axis", "statement": "align(lar1, lar2, join) returns two larrys whose labels on each axis are: inner - common list if identical else sorted intersection; outer - common list if identical else sorted union; left - lar1's; right - lar2's; skip - each one's own. Each output holds its input's value under every label it had and the missing marker under labels it did not have. It raises only: ValueError for a wrong ndim, number of joins or join string; IndexError if an axis of length 0 would have to be filled with new labels; TypeError for a refused cast.", "quantifier": "all pairs of valid larrys, all per-axis join lists", "why_tests_cant": "All inputs and join combinations.", "anchors": ["la/flarry.py: align", "la/flarry.py: align_raw"]}
{"id": "C17", "title": "align casts only when it must, and cast=False refuses", "statement": "align changes dtype only for int/bool inputs for which some axis introduces new labels, and then to float; with cast=False exactly those cases raise TypeError; an inner join never casts or raises TypeError.", "quantifier": "all pairs, joins, dtypes", "why_tests_cant": "All inputs.", "anchors": ["la/flarry.py: align_raw"]}
{"id": "C18", "title": "align_axis aligns many larrys along per-larry axes", "statement": "align_axis(lars, axis, join) morphs axis[j] of lars[j], for every j, to one common label list and carries every value over by label. For 'left' ('right') the list is that of the first (last) larry along its axis. For 'inner' ('outer') it is the sorted intersection (union) of the labels of lars[0] along axis[0] and of lars[i+1] along axis[i]; if lars[i+1] has no axis[i] the call raises IndexError. So when all entries of axis are equal, or axis is an integer, the labels joined are those of lars[j] along axis[j]; when they differ the joined labels can come from the wrong axis. A list of axes that is too short, an axis out of range, an unknown join and an empty list of larrys raise.", "quantifier": "all nonempty lists of valid larrys of any ndim, all axis lists of the same length, all joins", "why_tests_cant": "All list lengths and axes.", "anchors": ["la/flarry.py: align_axis"]}
{"id": "C19", "title": "union and intersection of labels are sorted, exact and order-independent", "statement": "union(axis, *lars) / intersection(axis, *lars) return the strictly increasing list of labels that are in some / every larry along the axis, independent of argument order.", "quantifier": "all argument lists", "why_tests_cant": "All lists, all orders.", "anchors": ["la/flarry.py: union, intersection"]}
{"id": "C20", "title": "merge combines two larrys without losing values", "statement": "y1.merge(y2): on each axis labels are the common list if identical else the sorted union; the value under names is y2's if y2 has a present (finite / non-missing) value there, else y1's if y1 has that cell, else missing. With update=False a ValueError is raised iff some cell is present in both. Different ndim raises IndexError; str/object mixed with another dtype, or present values of y2 that do not fit the dtype of the result, raise TypeError.", "quantifier": "all pairs of valid larrys", "why_tests_cant": "All inputs.", "anchors": ["la/deflarry.py: larry.merge"]}
{"id": "C21", "title": "merge without overlap is symmetric", "statement": "If y1 and y2 have no cell present in both, y1.merge(y2) and y2.merge(y1) both succeed, with the same labels and the same present values under every label tuple.", "quantifier": "all pairs of float larrys", "why_tests_cant": "All inputs.", "anchors": ["la/deflarry.py: larry.merge"]}
{"id": "C22", "title": "binaryop fills missing values as documented", "statement": "binaryop(func, lar1, lar2, join, missone, misstwo) applies func elementwise to the aligned inputs after replacing values missing in exactly one input by missone and values missing in both by misstwo; 'ignore' leaves them.", "quantifier": "all pairs, joins, fill values, elementwise funcs", "why_tests_cant": "All inputs.", "anchors": ["la/flarry.py: binaryop, add, subtract, multiply, divide"]}
{"id": "C23", "title": "Which operations alias or mutate their inputs", "statement": "Copying calls (copy, elementwise methods, reductions, morph, morph_like, sortaxis, take, keep_label, lag, T, swapaxes, flipaxis, maplabel, vacuum, cut_missing, keep_x, insertaxis, arithmetic, align, binaryop without fills, merge of larrys whose labels differ, indexing with a mask or larry) write to nothing that existed before, whether they return or raise, and return larrys that share no array, label list or list of lists with anything that existed before. So no later sequence of steps on the results changes what the rest of the program sees, nor the other way round. squeeze, pull and indexing with integers and slices return views: after any later writes to elements or labels the view still shows the elements of the original. Indexing also shares the label lists of the axes it does not mention, even when a list index copies the elements. merge of larrys with identical labels returns self after writing the merged values into it. binaryop with missone/misstwo writes the fills into the array of an argument in exactly the case that alignment left that argument's labels as they were, and into nothing else.", "quantifier": "all memories in order, all programs holding any references, all later interleavings of steps by either side", "why_tests_cant": "Quantifies over all later histories of mutation.", "anchors": ["la/deflarry.py: larry.copy, merge, squeeze, getitem", "la/flarry.py: align, binaryop"]}
{"id": "C24", "title": "sortaxis sorts labels and keeps every labelled value", "statement": "y.sortaxis(axis, reverse) returns labels along the requested axes in increasing (reverse: decreasing) order, a permutation of the original, other axes untouched, get(names) unchanged for all names, dtype unchanged; applying it twice is the same as once.", "quantifier": "all valid larrys, axis None or int", "why_tests_cant": "All permutations.", "anchors": ["la/deflarry.py: larry.sortaxis"]}
{"id": "C25", "title": "flipaxis reverses order only", "statement": "y.flipaxis(axis) reverses labels and data along the requested axes so get(names) is unchanged; flipping twice restores the larry.", "quantifier": "all valid larrys, axis None or int", "why_tests_cant": "All inputs.", "anchors": ["la/deflarry.py: larry.flipaxis"]}
{"id": "C26", "title": "lag shifts values relative to labels", "statement": "y.lag(k) for k>0: label at position i+k carries the value that was at position i, labels are the last n-k; for k<0 the label at i carries the value from position i+|k|, labels are the first n-|k|; k=0 is a copy; |k|>=n gives an empty axis.", "quantifier": "all valid larrys, all integers k, all axes", "why_tests_cant": "All k and sizes.", "anchors": ["la/deflarry.py: larry.lag"]}
{"id": "C27", "title": "Transpose and swapaxes permute names, not values", "statement": "y.T.get(reversed names)=y.get(names), y.T.T=y; swapaxes(i,j) swaps the two names and is an involution.", "quantifier": "all valid larrys of every dimension, all axis pairs", "why_tests_cant": "Any ndim.", "anchors": ["la/deflarry.py: larry.T, swapaxes"]}
{"id": "C28", "title": "flatten pairs each value with its label tuple", "statement": "y.flatten(order) for order 'C' or 'F' is a valid 1d larry of length size and the same dtype whose labels are tuples of labels, all distinct; the value under tuple t is y's value under the names t; the tuple of the cell at idx stands at its row-major ('C') or column-major ('F') position; any other order raises ValueError.", "quantifier": "all valid larrys, both orders", "why_tests_cant": "Any ndim/shape.", "anchors": ["la/deflarry.py: larry.flatten", "la/flabel.py: flattenlabel"]}
{"id": "C29", "title": "flatten/unflatten, totuples/fromtuples, tolist/fromlist, todict/fromdict round trips", "statement": "larry.fromlist/fromtuples on any nonempty list of labelled numbers gives a valid float larry whose axes carry the distinct labels in increasing order, where a cell holds the last value listed for it and NaN if none is listed. One value with any number of label tuples fills every named cell; two or more values with another number of tuples raise ValueError. Hence for a valid nonempty int or float larry unflatten(flatten), and for a numeric or bool one fromtuples(totuples), fromlist(tolist), fromdict(todict) (whatever order the dict iterates in), give the larry with every axis sorted, float dtype and every labelled value unchanged; unflatten of other dtypes raises NotImplementedError.", "quantifier": "all valid nonempty larrys; all lists of label tuples", "why_tests_cant": "All inputs.", "anchors": ["la/deflarry.py: larry.flatten, unflatten, totuples, fromtuples, tolist, fromlist, todict, fromdict", "la/util/misc.py: fromlists"]}
{"id": "C30", "title": "panel reshapes 3d to 2d keeping labels attached", "statement": "panel(y) of a valid 3d larry with a nonempty first axis is a valid 2d larry with rows labelled by the pairs (b,c), columns by a, and panel(y).get([(b,c), a]) == y.get([a,b,c]); a larry that is not 3d or whose first axis is empty raises ValueError.", "quantifier": "all valid 3d larrys", "why_tests_cant": "All shapes.", "anchors": ["la/flarry.py: panel"]}
{"id": "C31", "title": "insertaxis and pull are inverse", "statement": "y.insertaxis(k, name) adds an axis with the single label name at the numpy expand_dims position (negative positions too): get with name inserted equals y.get; pulling that name along that axis returns the original.", "quantifier": "all valid larrys, all positions", "why_tests_cant": "Any ndim, negative axes.", "anchors": ["la/deflarry.py: larry.insertaxis, pull"]}
{"id": "C32", "title": "squeeze removes exactly the length-1 axes", "statement": "y.squeeze() drops labels of length-1 axes; the value under the remaining names is unchanged. (If every axis has length 1 the code returns an unsupported 0d larry.)", "quantifier": "all valid larrys", "why_tests_cant": "Any shape.", "anchors": ["la/deflarry.py: larry.squeeze"]}
{"id": "C33", "title": "Integer, slice, list, bool and tuple indexing keeps labels attached to values", "statement": "y[index] (an integer, slice, integer list/array, boolean array, boolean larry, or a tuple of these) holds y's values under y's labels: integer-indexed axes are dropped, the other axes keep exactly the labels picked, and every cell equals y's value under the same labels. It succeeds exactly when there are no more entries than axes, at most one entry is a list, each entry finds what it asks for and no label is picked twice; otherwise it raises IndexError or ValueError. It is an element when every axis has an integer, a bare unlabelled array for a tuple of fewer integers than axes, a larry otherwise. Excluded, because the code mislabels there: an index in which a list comes after a slice while integers and lists are separated by a slice (numpy then moves the list axis first).", "quantifier": "all valid larrys and all such indices", "why_tests_cant": "All index expressions.", "anchors": ["la/deflarry.py: larry.__getitem__"]}
{"id": "C34", "title": "take selects positions along one axis and rejects duplicates", "statement": "y.take(indices, axis) keeps exactly the chosen labels in that order with their values and raises IndexError for duplicates or indices out of range; y[:, ..., indices] returns the same larry, exactly when take returns one.", "quantifier": "all valid larrys, index lists (negative indices too), axes", "why_tests_cant": "All inputs.", "anchors": ["la/deflarry.py: larry.take"]}
{"id": "C35", "title": "lix label indexing is rectangular indexing by label", "statement": "y.lix[...] with lists of labels, slices whose bounds may be labels, and positions returns the rectangular selection: in a tuple every axis with one label selected is squeezed away, a single entry selects on axis 0 and removes it when it is a position or a one-label list. Every value stays under its labels. It succeeds exactly when every entry selects something existing and no label repeats; a larry of shape (0,) is returned as is and any other empty axis raises ValueError.", "quantifier": "all valid larrys without empty axes, all lix expressions", "why_tests_cant": "All inputs.", "anchors": ["la/deflarry.py: Lix, slicemaker, labels2indices"]}
{"id": "C36", "title": "lix assignment writes exactly the selected rectangle", "statement": "y.lix[idx] = v changes exactly the selected cells: a scalar is stored in each of them, a larry must carry the labels of the selection and each value lands under its own labels. The assignment succeeds exactly when the selection exists (and, for a larry, its labels are those of the selection); labels and dtype do not change.", "quantifier": "all valid larrys, index tuples, scalars/aligned larrys", "why_tests_cant": "All inputs.", "anchors": ["la/deflarry.py: Lix.__setitem__"]}
{"id": "C37", "title": "Item assignment with larry values is label safe", "statement": "y[mask]=v with a larry mask raises IndexError unless labels are identical and then changes exactly cells where mask is True; y[index]=larry requires the labels of y[index] to equal the value's labels.", "quantifier": "all valid larrys and masks", "why_tests_cant": "All inputs.", "anchors": ["la/deflarry.py: larry.__setitem__"]}
{"id": "C38", "title": "keep_label and keep_x filter exactly", "statement": "keep_label(op, value, axis) keeps exactly the labels satisfying the comparison with values unchanged (an empty 1d larry if none); keep_x(op, value) of a float larry replaces exactly the values failing the comparison by NaN, and with vacuum=True then drops all-missing rows/columns. keep_x of an int larry raises ValueError; in a bool larry the failing values become True.", "quantifier": "all valid larrys, ops, values; keep_x: all float, int and bool larrys", "why_tests_cant": "All inputs.", "anchors": ["la/deflarry.py: larry.keep_label, keep_x"]}
{"id": "C39", "title": "vacuum removes exactly the all-missing slices", "statement": "y.vacuum(axis) drops, on each axis not listed in `axis` (all axes if None), exactly the labels whose slice has no finite value; remaining values keep their labels; it is idempotent. (A negative axis is not normalised: vacuum(axis=-1) acts like axis=None.)", "quantifier": "all valid float larrys, axis None/int/tuple", "why_tests_cant": "All inputs.", "anchors": ["la/deflarry.py: larry.vacuum"]}
{"id": "C40", "title": "cut_missing drops slices by missing fraction", "statement": "cut_missing(fraction, axis) on the axes other than `axis` keeps exactly the labels whose count of finite values exceeds (1-fraction)*slice size, in order, with every remaining value under its labels; when an axis ends without labels the result is the empty 1d larry; axis=None cuts nothing; a bad axis raises IndexError; a str or object larry with an axis to cut raises TypeError.", "quantifier": "all valid larrys, fractions, axes", "why_tests_cant": "All inputs.", "anchors": ["la/deflarry.py: larry.cut_missing"]}
{"id": "C41", "title": "labelindex exact and nearest", "statement": "labelindex(name, axis) returns the position of name; with exact=False and name absent returns the largest position whose label is smaller, which on sorted labels is the nearest smaller label; raises IndexError iff none.", "quantifier": "all valid larrys", "why_tests_cant": "All inputs.", "anchors": ["la/deflarry.py: larry.labelindex"]}
{"id": "C42", "title": "Reductions remove one axis and its labels", "statement": "sum/mean/max/... along axis return a larry with that label list removed whose value under the remaining names is the reduction of the values along the removed axis; on empty larrys the default (NaN/False/True) fills the result; axis=None gives a scalar; 1d gives a scalar.", "quantifier": "all valid larrys, axes, reduction functions", "why_tests_cant": "All shapes.", "anchors": ["la/deflarry.py: larry.__reduce"]}
{"id": "C43", "title": "cumsum and cumprod ignore NaN", "statement": "y.cumsum(axis)/cumprod(axis): where the input is NaN the output is NaN, elsewhere it is the sum/product of the non-NaN values up to and including that position; labels unchanged; for an int larry the running sums/products as ints, for a bool larry the running count of True and whether all so far are True.", "quantifier": "all valid larrys, axes", "why_tests_cant": "All inputs.", "anchors": ["la/deflarry.py: larry.cumsum, cumprod"]}
{"id": "C44", "title": "prod ignores NaN unless everything is NaN", "statement": "y.prod(axis) is the product of the non-NaN values along the axis, NaN if there is none; for an int or bool larry it is the exact integer product, True counting as 1 and False as 0.", "quantifier": "all larrys of any size", "why_tests_cant": "All inputs.", "anchors": ["la/deflarry.py: larry.prod"]}
{"id": "C45", "title": "clip bounds values and keeps the dtype", "statement": "y.clip(lo, hi) raises ValueError iff lo>hi; otherwise labels and dtype are unchanged and each non-NaN value is moved to the nearest point of [lo,hi], written in the dtype of y: a float larry holds exactly that point, an int larry holds it truncated toward zero (hence the exact point, inside [lo,hi], whenever each bound is whole or infinite; larry([1,2]).clip(1.5,3) still holds 1, below its bound), a bool larry holds whether it is nonzero. Clipping twice is clipping once.", "quantifier": "all float, int and bool larrys, all bounds including infinities", "why_tests_cant": "All inputs; the docstring has one int larry with whole bounds.", "anchors": ["la/deflarry.py: larry.clip"]}
{"id": "C46", "title": "push fills forward within the window only", "statement": "push(x, n): a finite value is unchanged; a non-finite value at position i becomes the most recent earlier finite value if that is at most n positions back, else NaN.", "quantifier": "all sequences, all n", "why_tests_cant": "All lengths and windows.", "anchors": ["la/farray/normalize.py: push", "la/deflarry.py: larry.push"]}
{"id": "C47", "title": "lastrank is the normalised rank of the last element, in [-1,1]", "statement": "lastrank of a sequence without infinities: NaN if the last element is NaN or is the only finite one, otherwise 2*((#smaller + (#equal-1)/2)/(n-1)) - 1 in [-1,1]; -1 iff unique minimum, 1 iff unique maximum.", "quantifier": "all sequences", "why_tests_cant": "All lengths.", "anchors": ["la/farray/normalize.py: lastrank"]}
{"id": "C48", "title": "ranking is NaN-preserving, order-preserving and normalised", "statement": "ranking(x, norm='-1,1'): NaN stays NaN, other values are mapped into [-1,1] preserving order (ties equal), a single value maps to the middle; norm '0,N-1' maps into [0,N-1]; norm 'gaussian' maps the rank r of c values in a line of length N to ndtri((r*(N-1)/(c-1) + 1)/(N+1)), the argument being strictly between 0 and 1, and a single value to 0, so order and ties are kept there too.", "quantifier": "all sequences; along an axis and over all elements", "why_tests_cant": "All lengths, all patterns of ties and NaN.", "anchors": ["la/farray/normalize.py: ranking", "la/deflarry.py: larry.ranking"]}
{"id": "C49", "title": "quantile bins are monotone and normalised", "statement": "quantile(x, q) with q > 1: non-finite values give NaN; finite values get one of q equally spaced values in [-1,1] (the bin of their rank), larger values never get a smaller bin; q=1 gives 0 except NaN for NaN; q<1 raises, q larger than the axis raises.", "quantifier": "all sequences, all q", "why_tests_cant": "All lengths and q.", "anchors": ["la/farray/normalize.py: quantile, _quantileraw1d"]}
{"id": "C50", "title": "Moving-window functions: loop and strides methods agree and stay in bounds", "statement": "move_func with method='loop' and 'strides' returns the same array: NaN at the first window-1 positions, then func of the window ending at each position; the strided view only addresses memory of the input array; window<1 or window>n raises ValueError.", "quantifier": "all 1d/2d/3d arrays with any memory strides, all windows, all axis-wise functions", "why_tests_cant": "Memory layout and window arithmetic over all shapes.", "anchors": ["la/farray/move.py: move_func_loop, move_func_strides"]}
{"id": "C51", "title": "movingsum_forward sums the right window", "statement": "movingsum_forward(x, window, skip) with skip >= 0: output at t is the sum of the non-NaN values at t+skip .. t+skip+window-1 (times window/count with norm=True), NaN if all are NaN or the window runs past the end; window < 1 or > n raises ValueError, skip > n IndexError.", "quantifier": "all sequences, windows, skips", "why_tests_cant": "All sizes.", "anchors": ["la/farray/move.py: movingsum, movingsum_forward"]}
{"id": "C52", "title": "demean/demedian/zscore", "statement": "demean subtracts the mean of the non-NaN values so that the non-NaN values sum to zero; NaN stay NaN, also in a line of nothing else; zscore has zero mean and unit variance where std is nonzero.", "quantifier": "all sequences", "why_tests_cant": "All lengths.", "anchors": ["la/farray/normalize.py: demean, zscore"]}
{"id": "C53", "title": "Group operations act within groups only", "statement": "group_mean/median/ranking: the output at i depends only on elements whose group equals i's group, elements with group None give NaN, the groups are aligned by label; a missing group label raises IndexError.", "quantifier": "all larrys and group larrys", "why_tests_cant": "All inputs.", "anchors": ["la/farray/group.py", "la/deflarry.py: larry._group_align, group_mean"]}
{"id": "C54", "title": "cross_validation partitions the data", "statement": "cross_validation(n, kfold) yields kfold (train,test) pairs; tests are disjoint, non-empty and together contain each of 0..n-1 exactly once, train is the complement of test and non-empty, every test set has n//kfold members except the last which also gets the remainder, for every shuffle; n < 2, kfold < 2 and kfold > n raise ValueError.", "quantifier": "all n, kfold, all shuffles", "why_tests_cant": "All n,k and all random permutations.", "anchors": ["la/util/resample.py: cross_validation"]}
{"id": "C55", "title": "bootstrap samples and out-of-bag sets", "statement": "bootstrap(n, nboot) yields, for each random draw that misses some index of range(n), the draw itself and exactly the indices it misses, passing over the other draws, and stops exactly when nboot pairs have been yielded; n < 2 and nboot < 1 raise ValueError.", "quantifier": "all n, nboot, all random streams", "why_tests_cant": "All random streams.", "anchors": ["la/util/resample.py: bootstrap"]}
{"id": "C56", "title": "The HDF5 archive behaves like a dictionary", "statement": "For keys none of whose paths leads through another's and larrys the archive can hold, any sequence of io[key]=y and del io[key] behaves like a dictionary: each call succeeds or raises as the dictionary would, io[key] then loads the last larry set, keys() lists exactly the stored keys once. One exception: overwriting a key that is not a plain name (contains a slash) raises RuntimeError and keeps the old larry. A failed assignment over an existing plain key loses the old larry and leaves the key unusable (KeyError).", "quantifier": "all sequences of archive operations on non-nested keys", "why_tests_cant": "All histories.", "anchors": ["la/io.py: IO, save, load, delete, archive_directory"]}
{"id": "C57", "title": "Archived labels survive the trip to HDF5", "statement": "A label list of one type (ints within int64, floats, bools, strings without trailing NULs, dates, times and datetimes without tzinfo) is loaded equal to what was saved; nothing else is: a list of mixed types raises TypeError, tzinfo and trailing NULs are lost.", "quantifier": "all label lists", "why_tests_cant": "All label values.", "anchors": ["la/io.py: _list2array, _load_label, datetime2tuple, time2tuple"]}
{"id": "C58", "title": "repack never loses the archive", "statement": "At every crash point of repack some file on disk holds the complete tree of the archive; after completion, if the two temporary names were free, the archive file loads every key and lists keys() as before, the temporary files are gone and no other file changed. Exactly between the two renames no file has the original name. A larry stored in the root group is lost.", "quantifier": "all crash points, all archives", "why_tests_cant": "Crash points.", "anchors": ["la/io.py: repack"]}
{"id": "C59", "title": "clear empties the archive", "statement": "IO.clear() removes every larry and nothing else when no larry is stored beneath another; otherwise it raises KeyError part way.", "quantifier": "all archives", "why_tests_cant": "All archives.", "anchors": ["la/io.py: IO.clear"]}
{"id": "C60", "title": "Lazy archive indexing equals load then index", "statement": "For a lara made from the archive as it is, io[key][index] returns the values of the stored larry under its labels, and equals load(file,key)[index] whenever both succeed and the latter does not mix up the axes; it succeeds exactly for the indices load-then-index accepts that are integers, forward slices or increasing lists and are not a list, array or larry standing alone (those raise). Lists that count from the end ([-1, 0]) and a lara older than the last overwrite give wrong labels.", "quantifier": "all archives, indices", "why_tests_cant": "All inputs.", "anchors": ["la/io.py: lara"]}
{"id": "C61", "title": "ismissing agrees with the missing marker and nans", "statement": "ismissing(x) is True exactly at elements equal to the dtype's missing marker (NaN/''/None), all False for int/bool; nans(shape, dtype) is all missing, TypeError for int/bool.", "quantifier": "all arrays", "why_tests_cant": "All inputs.", "anchors": ["la/missing.py"]}
{"id": "C62", "title": "stack builds a 3d larry of aligned pages", "statement": "stack(mode, **lars) has sorted keys as first axis, sorted union/intersection of row and column labels, and page key holds lars[key]'s values under their labels and NaN elsewhere.", "quantifier": "all keyword collections of 2d larrys", "why_tests_cant": "All inputs.", "anchors": ["la/flarry.py: stack"]}
{"id": "C63", "title": "sortby reorders along the other axis", "statement": "sortby(lar, element, axis) permutes the other axis so that the values in the chosen row/column are in the order argsort sorts by (reversed if asked); all labelled values unchanged; a larry that is not 2d, a bad axis or an unknown element raise.", "quantifier": "all 2d larrys", "why_tests_cant": "All inputs.", "anchors": ["la/flarry.py: sortby"]}
{"id": "C64", "title": "Every history of larry methods keeps the larry well-formed", "statement": "Starting from well-formed larrys (or from none), after any finite sequence of the modelled methods and functions, with raised exceptions caught, every larry of the program has one label list per axis, as long as the axis and without duplicates, provided arithmetic with a bare array does not broadcast beyond the larry, squeeze is not called on an all-length-1 shape, maplabel's function keeps labels apart and binaryop skips no axis. Without these conditions a call that returns does create a broken larry.", "quantifier": "all finite method sequences", "why_tests_cant": "All histories.", "anchors": ["la/deflarry.py"]}
{"id": "C65", "title": "split divides a larry into train and test without loss", "statement": "split(lar, idx_train, idx_test, axis) with index lists that partition the axis gives two well-formed larrys such that every labelled value of lar is in exactly one of them; with a pair from bootstrap it always raises IndexError for a larry, because the draw repeats an index.", "quantifier": "all valid larrys, axes and partitions", "why_tests_cant": "All inputs and all random draws.", "anchors": ["la/util/resample.py: split", "la/deflarry.py: larry.take"]}
{"id": "C66", "title": "The order of labels does not matter to label-based calls", "statement": "Two larrys with the same labelled values but with the labels of each axis in a different order cannot be told apart by label-based calls: morph, merge, align, align_axis, binaryop, arithmetic and comparison with larrys or scalars, stack, sortaxis, keep_label, pull, flipaxis, T, swapaxes, squeeze, insertaxis, maplabel, get, set, prod, clip, ranking, ismissing, vacuum, cut_missing, keep_x, and, when the function passed in disregards order, reductions, demean, zscore and group methods. Each such call raises the same exception or returns the same labelled values; so does any program of such calls; after sortaxis() the results are equal element by element.", "quantifier": "all stores of valid larrys and reorderings of every axis, all programs of label-based calls of any length, all dtypes", "why_tests_cant": "A relation between two runs over all reorderings and all programs; a test compares a few runs.", "anchors": ["la/deflarry.py: larry.morph, larry.pull, larry.keep_label, larry.vacuum, larry.cut_missing, larry.ranking, larry.demean", "la/flarry.py: align, align_axis, binaryop, stack", "la/deflarry.py: larry.sortaxis"]}
{"id": "C67", "title": "cov: mean products over common columns", "statement": "cov(lar) of a 2d int or float larry without infinities has both axes labelled by the rows of lar, and the value labelled (a, b) is the sum of products of rows a and b over the columns where both are present, divided by the number of such columns (no mean is subtracted). It raises ValueError exactly when some pair of rows has fewer than two columns in common or lar is not 2d, and TypeError for str and object. The result is symmetric, has a nonnegative diagonal, is positive semidefinite when nothing is missing, and does not depend on the order of labels. For a bool larry the product of two rows is only whether they are both True somewhere.", "quantifier": "all 2d larrys of any size with any pattern of NaN", "why_tests_cant": "Semidefiniteness and symmetry are statements about all matrices, weights and patterns of missing values.", "anchors": ["la/flarry.py: cov", "la/farray/misc.py: covMissing"]}
{"id": "C68", "title": "geometric_mean is the geometric mean of the numbers present", "statement": "geometric_mean(x, axis, check) gives, for each line along the axis (all elements with axis=None), NaN if the line has no number and else the g >= 0 with g**m equal to the product of the m numbers present. g lies between any bounds of the numbers and is at most their average. With the check on, a number <= 0 anywhere in the array is a ValueError whatever the axis; with the check off, a negative number makes exactly its own line NaN. Of two arrays with NaN in the same places, the geometric mean of the products is the product of the geometric means, and of the quotients the quotient (where nothing is divided by zero); that of a multiple a*x with a >= 0 is a times that of x.", "quantifier": "all arrays of any shape without infinities, all axes, all patterns of NaN", "why_tests_cant": "An identity and inequalities over all lists of real numbers.", "anchors": ["la/farray/misc.py: geometric_mean", "la/deflarry.py: larry.geometric_mean"]}
{"id": "C69", "title": "correlation is Pearson's coefficient over the places where both are present", "statement": "correlation(arr1, arr2, axis) gives, for each line along the axis (all elements with axis=None), Pearson's coefficient of the pairs at places where neither array is NaN, and NaN if one of the two does not vary over these places; the fast branch and the NaN branch agree on this. The result is at most 1 in absolute value, is 1 or -1 exactly when the pairs lie on a rising or a falling line, is the same with the arrays swapped, and changes at most its sign under a change of units. If one array is an int array and the other has a NaN, giving an axis raises ValueError, although axis=None works.", "quantifier": "all pairs of arrays of one shape without infinities, all axes, all patterns of NaN", "why_tests_cant": "The Cauchy-Schwarz bound and its equality case are statements about all data.", "anchors": ["la/farray/misc.py: correlation"]}
{"id": "C70", "title": "shuffle moves whole slices, shufflelabel moves labels", "statement": "lar.shuffle(axis) keeps labels and dtype and rearranges whole slices along the axis (along each axis with None): some reordering of the label lists of the shuffled axes turns the new data back into the old labelled values. lar.shufflelabel(axis) keeps the data and puts the labels of the axis in another order, never moving a label to another axis. Both leave a well-formed larry. An axis out of range is a ValueError of shuffle and an IndexError of shufflelabel. Every order of the labels is reached by exactly one sequence of draws, so equally likely draws give equally likely orders.", "quantifier": "all valid larrys, axes and sequences of random draws", "why_tests_cant": "The result is random: a test sees a few draws; losing or duplicating a slice, or a biased order, shows only over all of them.", "anchors": ["la/deflarry.py: larry.shuffle, larry.shufflelabel", "la/farray/misc.py: shuffle"]}
{"id": "C71", "title": "maxlabel, minlabel and isaligned", "statement": "maxlabel(axis) and minlabel(axis) return the greatest and the least label of the axis, or of all axes with None; ValueError if such an axis is empty, IndexError if there is no such axis. isaligned(lar1, lar2, axis) is True exactly when the label lists are equal in the same order. What align returns is aligned unless an axis is skipped, and arithmetic on aligned larrys works position by position and keeps labels and their order.", "quantifier": "all valid larrys over any ordered label type, all axes, joins and operations", "why_tests_cant": "All label lists, joins and operations.", "anchors": ["la/deflarry.py: larry.maxlabel, larry.minlabel", "la/flarry.py: isaligned"]}
{"id": "C72", "title": "Elementwise methods act on each labelled value alone", "statement": "log, exp, sqrt, sign, power(q), -lar, +lar, abs, isnan, isfinite, isinf, invert, nan_replace and astype keep labels and shape; the value at each label of the result is the stated function of the value at that label (NaN, infinities and truncation to int included), in the stated dtype. invert raises TypeError unless the dtype is bool. Negating twice, inverting a bool larry twice and converting to a wider dtype and back give the larry again. At each label exactly one of isnan, isinf, isfinite is True. After nan_replace with a number nothing is NaN. sign times abs is the larry; power(p) times power(q) is power(p+q).", "quantifier": "all valid bool, int and float larrys of any shape, all labels, all whole exponents >= 0", "why_tests_cant": "All values including NaN and infinities, all dtypes, shapes and exponents.", "anchors": ["la/deflarry.py: larry.log, exp, sqrt, sign, power, __neg__, __pos__, abs, isnan, isfinite, isinf, invert, nan_replace, astype"]}
{"id": "C73", "title": "Programs of data moves do not look at the data", "statement": "Run a program of calls that select, arrange, align, fill, compare, merge, reduce, write and combine larrys, on two sets of larrys with the same labels and dtypes whose elements are pairwise related by R, where R relates the missing markers and is respected by the functions passed in. Then each call raises the same exception in both runs or returns larrys that are again pairwise related. So: applying a function g to all elements (g fixing missing markers and commuting with the cast to float) before a program of moves (morph, morph_like, align, sortaxis, keep_label, pull, take, flipaxis, lag, T, swapaxes, squeeze, insertaxis, maplabel, indexing, lix) or after it gives the same larrys; such a program invents no values; and changing the unit of all float larrys by a factor q > 0 commutes with programs that also add, subtract, merge and sum.", "quantifier": "all relations R on values, all programs of the 24 kinds of call, all valid starting larrys", "why_tests_cant": "All relations, programs, shapes and values; a test fixes one of each.", "anchors": ["la/deflarry.py: larry.morph, morph_like, sortaxis, keep_label, pull, take, flipaxis, lag, T, swapaxes, squeeze, insertaxis, maplabel, __getitem__, lix, set, binary operators, comparisons, merge, reductions", "la/flarry.py: align, align_axis"]}
{"id": "C74", "title": "Operators with a number or an array on either side", "statement": "lar op other and other op lar, for op in + - * / // and a scalar or an array that broadcasts to the shape of the larry, keep the labels; what is read with any labels is the number read before, op the element numpy pairs with it, with the operands in the order written, in the dtype numpy gives (bools: or, xor, and; int division rounds down and gives 0 for a zero divisor; IEEE rules for NaN, infinities and zero divisors). Two exceptions in the code: a bool (or bool array) minus a bool larry is the negation of the right answer at every label, because __rsub__ is -(lar - other); and under Python 2 lar / other from a module with true division calls __truediv__, which rounds down on ints because la/deflarry.py does not import division.", "quantifier": "all valid bool, int and float larrys, all six operator methods on both sides, all scalars and arrays that fit, Python 2 and 3", "why_tests_cant": "All values, dtypes, shapes and broadcasts, on both sides.", "anchors": ["la/deflarry.py: larry.__add__, __radd__, __sub__, __rsub__, __mul__, __rmul__, __div__, __rdiv__, __truediv__, __rtruediv__, __floordiv__, __rfloordiv__"]}
{"id": "C75", "title": "Sums and products of larrys do not depend on order or parentheses", "statement": "Combine any number of larrys of the same number of dimensions with + (or with *), in two ways that use each larry equally often. If all are int or float larrys (or all are bool), both expressions return, and the two results have the same labels in the same order, the same dtype and the same values. The same holds of every operator that is commutative and associative on the values involved. Mixing bools with numbers breaks it.", "quantifier": "all expressions built from one operator, all valid larrys with the same ndim, all label orders and overlaps", "why_tests_cant": "All expressions, orders of operands and overlaps of labels.", "anchors": ["la/deflarry.py: larry.__add__, __mul__, __align"]}
{"id": "C76", "title": "A larry written to a csv file is read back", "statement": "tocsv followed by fromcsv with the same delimiter gives back every value, as a float, in the cell with the same label texts; the labels of each axis are the same texts, in sorted order. This holds for every int or float larry with at least one element whose labels, as texts, are distinct on each axis, have no NUL, have at most 131072 characters, and under Python 3 no carriage return. The labels may contain delimiters, quotes and line breaks or be empty. At the level of rows of text the file holds exactly the rows written (Python 3: with line breaks normalised). skiprows ignores that many records under Python 2 and is an AttributeError under Python 3. A value that is not a number is a ValueError; so a bool larry cannot be read back, and a larry without elements comes back as larry([]). A blank line is an IndexError. The last row needs no line break at its end. A field whose quote is never closed silently takes the rest of the file, line breaks and delimiters included, into one field: no exception is raised by the reader.", "quantifier": "all larrys, all label texts, all delimiters other than quote, line break and NUL, both major versions of Python", "why_tests_cant": "Round trips depend on which characters occur in labels (quoting, delimiters, line breaks) in every combination; tests try a few harmless labels.", "anchors": ["la/deflarry.py: larry.tocsv, larry.fromcsv, larry.totuples, larry.fromtuples", "la/util/misc.py: fromlists"]}
{"id": "C77", "title": "Functions that create larrys give the cells and labels asked for", "statement": "lrange, empty, ones, zeros, rand and randn return a valid larry whose labels are the ones given or, without labels, 0, 1, 2, ... on each axis of the shape given. lrange numbers the cells consecutively in row-major order from start in steps of step, so no two cells hold the same number. ones and zeros hold that number in every cell, in the dtype asked for. rand and randn hold the numbers drawn, and return a single number if called without arguments. Without shape and label, with no axes, or with a duplicate label they raise ValueError. If labels are given, shape is ignored by lrange, empty, ones and zeros, while rand and randn raise ValueError when the sizes contradict the labels. rand with validate=False gives the larry unchecked, with validate=True what it gives without it, and with validate alone a ValueError.", "quantifier": "all shapes, all labels, all start and step (step not 0), all number dtypes, all random generators", "why_tests_cant": "All shapes in any number of dimensions and all combinations of arguments.", "anchors": ["la/flarry.py: lrange, empty, ones, zeros, rand, randn"]}
{"id": "C78", "title": "Programs look at labels only by comparing them", "statement": "Rename all labels by a one-to-one map that keeps their order, both in the larrys a program starts from and in the labels it writes in its calls. Then every call does the same thing, up to the renaming, or raises the same exception, and after any sequence of calls every variable holds the same array and dtype under the renamed labels, so the element read under the new names is the one read under the old names. It follows that no program makes up a label: if the labels of its larrys and those it writes lie in a set, and the functions it maps over labels stay in the set, then the labels of every result lie in the set. Without the order the elements of a sum can come out at other positions, and a map that is not one-to-one makes larrys the constructor refuses.", "quantifier": "all order-preserving renamings between any two label types, all programs over 46 methods and functions with any arguments, all starting larrys", "why_tests_cant": "A statement about pairs of runs of arbitrary programs under arbitrary renamings of arbitrary label types.", "anchors": ["la/deflarry.py: larry methods", "la/flarry.py: align, align_axis, binaryop, stack, sortby, union, intersection", "la/flabel.py: listmap, listmap_fill"]}
{"id": "C79", "title": "tofile writes a table that can be taken apart again", "statement": "tofile of a 1d or 2d larry raises nothing; a named file then holds the text and nothing else whatever it held before, a file object holds its old text followed by the new, and no other file changes. Any other number of dimensions is a ValueError and no file is opened. If no label or value has a line break or the first character of the delimiter in its text, then cutting the file at line breaks and delimiters gives: for 1d, one row (label, value) per element in label order; for 2d with at least one column, a rectangle with the column labels behind an empty corner and then one row per row label, which shows exactly the values of the larry in their rows and columns. So two such 2d larrys with the same file have the same label texts in the same order and the same value texts. tofile does not quote, does not record the number of dimensions, and with no columns writes a header that reads as one column with an empty label.", "quantifier": "all valid larrys of 1 and 2 dimensions of any size, all delimiters of any length without a line break, all texts of labels and values, all previous contents of the disk", "why_tests_cant": "That no two tables collide in the text and that every cell is found again holds over all label texts and delimiters, including ones longer than a character.", "anchors": ["la/deflarry.py: larry.tofile"]}
{"id": "C80", "title": "Programs of copying calls and in-place writes can be understood with larrys as values", "statement": "Take a program that holds any number of names for larrys with no array, list of labels or list of lists in common, and runs any sequence of: methods and functions that return new larrys (copy, elementwise methods, reductions, morph, sortaxis, take, keep_label, lag, T, swapaxes, flipaxis, maplabel, vacuum, cut_missing, keep_x, insertaxis, arithmetic, align, binaryop without fills, merge, indexing with sequences), flipaxis and maplabel with copy=False, and writes in place. Then at every point the names show exactly the values obtained by computing with values: a copying call adds new larrys with the values the method gives and changes nothing else; a write in place changes the one larry it was called on, for all its names, and no other; flipaxis and maplabel with copy=False and merge on equal labels change the larry they were called on and return that same larry; a call that raises leaves everything as it was. The two results of align have no part in common. No larry ever gets a part in common with another. All methods, and ordinary uses of arrays and labels held, keep every array showing each cell of its memory once, so that writes in place put in every element what was asked.", "quantifier": "all programs of any length, all larrys with valid labels of any number of dimensions, all arguments, all states of the memory in order", "why_tests_cant": "Aliasing shows only when a later write hits a shared part; sequences of calls and writes are unbounded.", "anchors": ["la/deflarry.py: larry.copy", "la/deflarry.py: larry.flipaxis", "la/deflarry.py: larry.maplabel", "la/deflarry.py: larry.merge", "la/deflarry.py: larry.shuffle", "la/flarry.py: align"]}
{"id": "C81", "title": "quotes makes one table of the days downloaded for several tickers", "statement": "la.data.yahoo.quotes(tickers, adjust=False), for distinct tickers each of which the server sends some days for and none of them twice, returns a valid float larry with three axes: the tickers in order, the items open, close, high, low, volume, adjclose, and the dates of all tickers in order. The value under a ticker, an item and a date is that number of the line `Date,Open,High,Low,Close,Volume,Adj Close` the server sent for that day, and NaN if the ticker has no such day; the heading and lines that have not seven fields are passed over. With adjust=True (closes not zero) the item adjclose is left out, open, high and low are multiplied by adjclose / close, close is adjclose, and volume is as sent. The order in which the tickers are given does not matter. Without tickers an AttributeError is raised; the first ticker without days gives a TypeError, the first with a day sent twice or a ticker given a second time a ValueError.", "quantifier": "all answers of the server, all lists of tickers, all conversions of dates and numbers, adjust true and false", "why_tests_cant": "The function needs a web server and has no tests; the merge of tickers with different dates has unboundedly many cases.", "anchors": ["la/data/yahoo.py: quotes", "la/external/matplotlib.py: parse_yahoo_historical", "la/external/matplotlib.py: quotes_historical_yahoo"]}
{"id": "C82", "title": "Rankings see only the order of the values", "statement": "For a float larry and a second one with the same labels holding f(v) where the first holds v, f strictly increasing (NaN and the infinities unchanged): ranking (every norm, every axis or None), lastrank with and without decay, group_ranking, and quantile with an argsort that only compares, give the same larry or the same exception for both. clip and keep_x commute with f when bounds or comparison value go through f too; push and vacuum commute with any f. Negating the values negates ranking with norm '-1,1' and, without infinities, lastrank.", "quantifier": "all valid float larrys of any shape with NaN and infinities anywhere, all strictly increasing f on the rationals, all axes, norms, windows, bounds, operators, groups and decay weights", "why_tests_cant": "A test compares the ranks of a few arrays with known ranks; it cannot show that no monotone change of units, out of infinitely many, changes a rank.", "anchors": ["la/farray/normalize.py:91-124", "la/farray/normalize.py:164-223", "la/farray/normalize.py:233-293", "la/farray/group.py:44-60", "la/deflarry.py:458-462", "la/deflarry.py:2523-2533", "la/deflarry.py:4025-4060"]}
{"id": "C83", "title": "A change of units goes through the statistics", "statement": "For two float larrys with the same labels, the second holding a*v + b where the first holds v (a not 0; NaN stays NaN, infinities by float arithmetic): demean gives a times the demeaned values; demedian and group_median likewise move with any median that does; group_mean gives a*m + b; zscore is unchanged for a > 0 and negated for a < 0; movingsum_forward with norm gives a*s + window*b; with b = 0, movingsum_forward without norm and cumsum give a times the sums and cov gives a*a times the covariances. Exceptions are the same on both sides.", "quantifier": "all valid float larrys of any shape, NaN and infinities anywhere, all rationals a and b with a not 0, all axes, windows, skips and groups", "why_tests_cant": "Tests check a handful of arrays in one unit; that the result does not depend on the unit is a statement about every scale and every offset at once.", "anchors": ["la/farray/normalize.py:319-324", "la/farray/normalize.py:350-355", "la/farray/normalize.py:381-388", "la/farray/move.py:287-337", "la/farray/group.py:84-134", "la/farray/misc.py:136-160", "la/deflarry.py:348-356"]}
{"id": "C84", "title": "A total does not depend on how it is taken", "statement": "Ask for sum, max, min, any, all or prod of a larry with at least one element either at once (axis=None), or along some axis and then on the larry that comes back, again along any axis, and so on: every way ends with the same value, the one axis=None returns. For sum (float, int, bool) this holds if the larry does not hold both +inf and -inf; for prod (float) if it holds no infinity; for max and min (float, int) and any and all (float, int, bool) without condition, NaN included. Along a line whose last element is not NaN, cumsum ends with the sum of the line.", "quantifier": "all valid larrys with at least one element, any number of dimensions, any order of axes, positive or negative axis numbers, mixed with axis=None at any point", "why_tests_cant": "Tests reduce along one axis of small arrays; the number of ways to get to the total grows with the number of dimensions, and the NaN of an all-NaN line has to be left out again by the next step for any arrangement of the NaNs.", "anchors": ["la/deflarry.py:1069-1103", "la/deflarry.py:1155-1168", "la/deflarry.py:1387-1422", "la/deflarry.py:1424-1459", "la/deflarry.py:1461-1492", "la/deflarry.py:1494-1538", "la/deflarry.py:1540-1584"]}
{"id": "C85", "title": "When lastrank is the last slice of ranking", "statement": "The documentation says that suitably slicing the output of ranking gives the same result as lastrank. In each cell, y.lastrank(axis) equals y.ranking(axis, norm='-1,1') at the last label of the axis exactly if the line there ends with NaN, or ends with a finite number, holds at least one other finite number, and either holds no infinity or all its other values (NaN left out) are larger than the last. In particular the sentence is false of a line with a single value (NaN against 0) and in general of lines with infinities.", "quantifier": "all valid numeric larrys with at least one element, any number of dimensions, any axis given as a number, decay=0", "why_tests_cant": "The two methods count differently (finite values against values that are not NaN); whether they agree depends on where infinities, NaN and ties are in the line, which a few random arrays do not cover.", "anchors": ["la/deflarry.py:1586-1657", "la/deflarry.py:3157-3195", "la/farray/normalize.py:12-124", "la/farray/normalize.py:126-199"]}
{"id": "C86", "title": "Doing it twice is doing it once", "statement": "Calling the same method again on its own result changes nothing (same labels, dtype and elements): ranking for every norm and axis (for gaussian, if ndtri is increasing between 0 and 1 and NaN for NaN); demean and demedian if no line has an infinite centre (a mean is not infinite without infinities), with a larry for which an infinite mean makes the second call change a value; zscore if no line holds an infinity and the standard deviations are positive or NaN; keep_x with and without vacuum; keep_label if it keeps a label; morph_like with the same larry; squeeze; merge with update=True of the same larry.", "quantifier": "all valid larrys for which the first call succeeds, all axes, all arguments", "why_tests_cant": "Tests look at the result of one call on a few arrays; that a call has nothing left to do on its own result depends on ties, NaN, dtype changes and label order for arbitrary inputs.", "anchors": ["la/deflarry.py:3068-3195", "la/farray/normalize.py:126-199", "la/farray/normalize.py:295-388", "la/deflarry.py:2396-2533", "la/deflarry.py:3363-3420", "la/deflarry.py:3422-3503", "la/deflarry.py: larry.squeeze"]}
{"id": "C87", "title": "What the assertions for copies, views and equality guarantee", "statement": "If assert_iscopy passes on two larrys, no step of any program that holds one of them and what it makes from it changes what a program holding the other sees, in whatever order the two run; except for two things the assertion does not look at: disjoint parts of one array, and a list of labels shared along different axes (a pair of such larrys passes although sorting a list of one changes the other). Writing to elements of one never changes an element of the other, also for parts of one array. Every larry returned by a copying call passes assert_iscopy against every larry from before. If assert_isview passes, labels changed in place in one larry are changed in the other; the elements need not be shared. noreference is True where assert_iscopy passes, but also for a larry and a view of it; where nocopy is True assert_isview passes and the two larrys have the same value. What is not a larry is a TypeError, and for noreference and nocopy different numbers of dimensions are a ValueError. assert_larry_equal passes exactly if labels and dtype are equal and the elements under the same names are equal or finite floats that are close (without tolerance: the larrys are the same); with dtype=False numbers are compared across dtypes; with original the copy or view has to pass too.", "quantifier": "all memories, all pairs of valid larrys in them, all programs of both sides in any order; for equality all valid typed larrys of a dtype other than object; any np.may_share_memory that sees common elements and tells different buffers apart", "why_tests_cant": "The assertions are what the tests are written with; whether a passing assertion really excludes interference concerns all later programs, and no test examines the assertions on larrys that share memory in unusual ways.", "anchors": ["la/util/testing.py:154-209", "la/util/testing.py:211-226", "la/util/testing.py:228-244", "la/util/testing.py:261-273"]}
{"id": "C88", "title": "What a printed larry tells", "statement": "Printing a larry does not raise. If no label's text contains a line break and labels with the same text are the same, two larrys without an axis of more than ten labels print the same exactly if they have the same labels on the same axes and their arrays print the same; two larrys of the same shape print the same exactly if on every axis they agree in the labels shown (all of them, or the first three and the last three of more than ten) and their arrays print the same. Without knowing the shape this fails: an axis of seven labels with '...' in the middle prints like a longer one; and a label with a line break can look like two axes.", "quantifier": "all larrys with any number of axes and any labels; any str of labels and repr of arrays", "why_tests_cant": "A test compares the text of one larry with an expected text. That nothing else prints the same text concerns all pairs of larrys.", "anchors": ["la/deflarry.py:4983-5006"]}
{"id": "C89", "title": "Tables line up and can be read, and the listing of an archive is complete", "statement": "Under Python 2, indent of rows with the same number of at least two cells that give at least two lines prints every row on as many lines as its tallest cell has after wrapping; line k of a row shows line k of every cell (or nothing), justified as asked, in a column exactly as wide as the longest line in it; columns begin at the same place in every line, and with a header character of length one the separator is as long as the lines; it stands around all rows, after the first, or nowhere. No rows, a row without cells and an unknown name for justify raise. With one column or one line this fails: the characters of a single column become columns, and the separator of a single line is too short. The listing of an archive that is not empty shows every larry once, in alphabetical order, with dtype and shape in columns as wide as needed; archives with the same listing have the same names with the same dtypes and shapes (texts without line breaks or a space at the end). Under Python 3 indent of any rows and the listing of any archive raise.", "quantifier": "all tables, separators, delimiters, prefixes, postfixes and wrapping functions; all archives; any str of dtypes and shapes", "why_tests_cant": "There are no tests of the module. That lines are equally long and cells legible concerns all tables and all options at once.", "anchors": ["la/external/prettytable.py:12-50", "la/io.py:205-218"]}
{"id": "C90", "title": "Wrapped text keeps its content and its width", "statement": "wrap_always cuts a text into lines of exactly the width, except that the last can be shorter, and these lines make up the text; width 0 raises ZeroDivisionError. wrap_onspace only turns spaces into line breaks; a line longer than the width contains no space; and a text without line breaks is broken only where the next word would not fit. wrap_onspace_strict keeps every line within the width and changes nothing but spaces and line breaks, if these are the only white space in the text; with a tab a line can be too long.", "quantifier": "all texts; all widths (for wrap_always and wrap_onspace_strict: not negative)", "why_tests_cant": "Where a break falls depends on the lengths of all words before it; the claims concern all texts and all widths.", "anchors": ["la/external/prettytable.py:54-67", "la/external/prettytable.py:70-74", "la/external/prettytable.py:77-81"]}
{"id": "C91", "title": "The numbers that sum, prod, mean, median, var, std, max, min, any and all return", "statement": "Whatever the axis: sum adds what is not NaN (ints exactly, booleans counted, as an int); mean divides that by the number of values that are not NaN; median is the middle one of these in order, or halfway between the two in the middle; var is the sum of squared distances from the mean over the number of values less ddof (NaN or inf if that is zero, NaN if there is an infinity), std its root; max and min are an element that is not NaN and that none exceeds or undercuts; any is True exactly if some value is not zero (NaN is not), all if none is; prod of ints or booleans is an int. A line of NaN gives NaN for all but any and all. Infinities: one sign gives that infinity for sum and mean, both give NaN. Without elements: NaN, False for any, True for all; where cells remain, a bool larry is filled with True by the NaN and an int larry raises ValueError. Text raises TypeError. The median has no more than half of the finite numbers on either side, so that demedian centres without any assumption.", "quantifier": "all float, int and bool larrys of any shape, all axes, all ddof", "why_tests_cant": "Where the NaNs and infinities stand, how many values remain and how ddof compares to that number concern all lines of all larrys; tests check a few.", "anchors": ["la/deflarry.py:1103", "la/deflarry.py:1157-1167", "la/deflarry.py:1198", "la/deflarry.py:1270", "la/deflarry.py:1328", "la/deflarry.py:1385", "la/deflarry.py:1422", "la/deflarry.py:1459", "la/deflarry.py:1461-1492", "la/deflarry.py:1538", "la/deflarry.py:1584"]}
{"id": "C92", "title": "A part of a larry gets the same numbers as the whole", "statement": "Calculations along an axis go line by line: on a larry that has whole lines of another along the axis (other labels left out or reordered), cumsum, cumprod, push, ranking, quantile, demean, demedian, zscore, movingsum_forward, the group methods, lag, the moving functions, move_sum, move_mean, move_std, move_min, move_max and all reductions give every cell the value they give it in the whole larry, with the same dtype, and raise the same exception when they raise. So take, flipaxis, sortaxis, keep_label and morph (onto labels that exist) on another axis commute with the calculations, and vacuum and cut_missing on other axes do not change the numbers of the cells they leave.", "quantifier": "all well-formed larrys and all parts with whole lines, all axes, all arguments of the calculations, all picks that find their labels", "why_tests_cant": "That nothing leaks from one line into another (a shared buffer, a wrong axis, a reshape that mixes lines) is a statement about all pairs of a larry and a part of it; tests compare with numbers worked out for a few arrays.", "anchors": ["la/deflarry.py:348-356", "la/deflarry.py:414-422", "la/deflarry.py:1461-1492", "la/deflarry.py:3062-3064", "la/deflarry.py:3096", "la/deflarry.py:3155", "la/deflarry.py:3194-3195", "la/deflarry.py:3233-3235", "la/deflarry.py:3245-3286", "la/deflarry.py:3593-3611", "la/deflarry.py:3996-3998", "la/farray/normalize.py:164-199", "la/farray/normalize.py:272-293", "la/farray/group.py:51-58"]}
{"id": "C93", "title": "Assignment to a part of a stored larry", "statement": "io[key][index] = v, where it succeeds, leaves under key exactly the larry one gets by loading it and doing the same assignment: the cells of the block selected get the value, all others keep theirs, labels and dtype stay; the same holds for a boolean larry as index. All other larrys, the list of keys and all laras stay as they were, and a call that raises changes nothing. It succeeds exactly if numpy finds what the index asks for and h5py accepts it (slices forward, at most one increasing list that leaves one axis). After any sequence of storing, deleting and assigning to parts, on keys that do not lead through one another, the archive is the dictionary of larrys on which the same was done. A larry can never be assigned through a lara.", "quantifier": "all archives, keys, stored larrys, indices, values and boolean larrys; all sequences of calls", "why_tests_cant": "The claim is about every pair of an index and an archive, and about all sequences of calls; the suite has no test that assigns through a lara.", "anchors": ["la/io.py:319-326", "la/io.py:331-344", "la/deflarry.py:2107-2125"]}
{"id": "C94", "title": "Looping over an archive", "statement": "items(), values(), keys(), has_key and len agree after any history of calls: every key once, each with a lara that has the labels of the larry stored. A loop over the keys lists them once; with one call per turn on the key of the turn (store, delete, assign to a part, depending on the larry loaded) each key is treated exactly once, the turns up to the first that raises do to the dictionary what they would do one by one, and nothing else changes. So for k in io: io[k] = g(load(file, k)) maps all larrys if no key has a slash, and for k in io: io2[k] = io[k][:] copies every larry with its labels, dtype and elements. Loops over items() and iteritems() do the same if a turn changes its own key only.", "quantifier": "all histories of calls on keys that do not lead through one another, all bodies with one call per turn, all functions g, all archives copied to", "why_tests_cant": "Changing a container while looping over it goes wrong for particular combinations of keys, order and body; the claim is about all of them.", "anchors": ["la/io.py:119-148", "la/io.py:157-174", "la/io.py:176-203"]}
{"id": "C95", "title": "A formula of larrys is the formula of their cells", "statement": "An expression built from bool, int and float larrys with the same number of axes, with the operators + - * / // == != < > <= >= & | ~ and unary - +, the elementwise methods (log, sign, power, abs, isnan, isfinite, isinf, nan_replace, astype) and scalars on either side, gives a larry. On each axis its labels are the labels that every larry in the expression has there: in the common order if all lists are identical, else sorted. What is read with any labels is the value of the expression, with Python's and numpy's rules for the dtypes, for the numbers read from the larrys with these labels, however deep the expression and however differently the larrys are labelled. So two expressions with the same larrys in them and the same value for the numbers of each cell give the same larry, labels and dtype included: `~(y & z)` is `~y | ~z`, `~(y < z)` is `(y >= z) | y.isnan() | z.isnan()`, `y == z` is `(y <= z) & (y >= z)`, `y < z` is `z > y`, `y.isnan()` is `y != y`. And `y[condition] = v`, with a condition on larrys that have the labels of `y`, sets the cells that meet the condition and no other. (`~(y < 0)` is not `y >= 0` where `y` is NaN. Excluded: `~` of a larry that is not bool, which is refused, and a bool scalar minus a bool larry, C74.)", "quantifier": "for all expressions, all lists of larrys, all dtypes among bool, int and float, all cells", "why_tests_cant": "The claim is about every expression tree; each operator aligns its own operands, so whether the labels and cells still fit after several operators depends on the shape of the tree, and tests try a few trees on a few larrys.", "anchors": ["la/deflarry.py:646-954", "la/deflarry.py:956-1042", "la/deflarry.py:1044-1065", "la/deflarry.py:1661-1725", "la/deflarry.py:2107-2114"]}
{"id": "C96", "title": "la.add, la.subtract, la.multiply and la.divide", "statement": "With the defaults (inner join, nothing filled in) la.add(y, z), la.subtract, la.multiply and la.divide give the larry that y + z, y - z, y * z and y / z give: same labels, dtype and values; where numpy refuses the dtypes both raise the same exception (for different numbers of axes the function raises ValueError, the operator IndexError). With join='outer' and missone=0, la.add totals float larrys: applied to any number of larrys, in any order and with any parentheses, the result has every label that some larry has (in the common order if all lists are identical, else sorted), and each cell holds the sum of the numbers present for its labels; a cell for which no larry has a number is missing, or 0 if misstwo=0 is given as well. The same holds for la.multiply with products and 1 in place of 0. (For larrys without infinite numbers and without empty axes: inf + -inf is NaN, which the next call takes for missing.)", "quantifier": "for all larrys, all labels, all numbers of operands, all orders and parentheses", "why_tests_cant": "Totalling with several calls replaces missing values and aligns labels anew in every call; that the order never matters is a claim about all numbers of larrys, all patterns of missing cells and all trees of calls.", "anchors": ["la/flarry.py:790-908", "la/flarry.py:910-1028", "la/flarry.py:1030-1148", "la/flarry.py:1150-1268", "la/flarry.py:655-788"]}
{"id": "C97", "title": "Moving statistics are the ordinary statistics of the last window", "statement": "For a bool, int or float larry and 1 <= window <= the length of the axis, y.move_func(f, window, axis), where f is a reduction such as bn.nansum or bn.nanmedian, y.move_median and y.move_ranking give a float larry with the labels of y. Under the label at position i it holds NaN if i+1 < window, and otherwise exactly what f (the method median, the method lastrank) returns for the larry y.take(range(i+1-window, i+1), axis): the median of the numbers present in the window, or the place of the newest one among the finite ones. method='loop' and 'strides' (up to 3 axes) give the same, wherever the larry lies in memory. With a window of one, move_median is the larry as floats and move_ranking is all NaN; with a window of the whole axis the last label holds y.median(axis). Moving statistics commute with lag(k) for k >= 0, and with a negative lag from the first full window on. movingsum_forward(window, skip) holds under each label the moving sum of the label skip+window-1 places later, NaN if there is none. Text and object larrys raise TypeError, bad arguments ValueError.", "quantifier": "for all larrys of any dimension, all memory layouts, all windows, axes, lags and skips", "why_tests_cant": "The strides method depends on how the array lies in memory, and off-by-one mistakes at the first full window show only for some combinations of window, axis, layout and NaNs; the tests compare a few arrays.", "anchors": ["la/deflarry.py:2882-2961", "la/deflarry.py:2963-3003", "la/deflarry.py:3005-3058", "la/deflarry.py:3060-3064", "la/farray/move.py:15-56", "la/farray/move.py:60-123", "la/farray/move.py:167-241"]}
{"id": "C98", "title": "Putting many larrys together with merge", "statement": "Any number of larrys of one dtype (float, str or object) and one number of axes are put together with calls of merge, with any parentheses. Unless a call without update=True meets two larrys with a value for the same names, which raises ValueError (and nothing else does), the result has on every axis the common label list if all are identical and else the sorted union of all; under any names it holds the value of the last larry that has one there, and the missing value where none has. So parentheses do not matter to updates; order and parentheses do not matter to larrys without overlap; and parts of a larry that cover its values, put together again in any order, give back its values under their names.", "quantifier": "for all numbers of larrys of any dimension, all label lists and values, all ways to set parentheses and all choices of update", "why_tests_cant": "The tests merge two small larrys; what many merges give depends on how intermediate label lists and missing values combine over every order and every tree of calls.", "anchors": ["la/deflarry.py:3422-3503"]}
{"id": "C99", "title": "What lix, flatten, panel, stack, cov, align_axis, sortby, getx, getlabel, copylabel, lrange, ones and zeros share with their arguments", "statement": "These calls write to nothing that existed before, also when they raise. getx, getlabel and copylabel with their default copy, cov, flatten, panel, align_axis, stack, sortby, lix with a tuple of integers and slices, and lrange, ones and zeros without label return objects no part of which existed before: whatever the program does afterwards to what was there is never seen through the result, and the other way round. lix with lists of labels in the tuple gives a new array, but every list of two or more labels between the brackets becomes, as the same object, a label list of the result; lix of a larry of shape (0,) is the larry itself; lrange, ones and zeros with label= keep the list of lists given, so that la.zeros(label=y.label) and y have their labels in common. In all cases the values returned are those of the functions on values.", "quantifier": "for all well-formed memories, all arguments and all later programs of any length, in any interleaving of the two sides", "why_tests_cant": "The tests compare values right after a call; that no later write through one object is ever visible through another is a claim about all programs, and the tests do not write to the lists given to lix or to the label given to zeros.", "anchors": ["la/deflarry.py:5017-5074", "la/flarry.py:1385-1405", "la/flarry.py:487-520", "la/flarry.py:1746-1765", "la/flarry.py:1844-1934", "la/deflarry.py:4954-4966"]}
{"id": "C100", "title": "Changes along different axes can be made in any order", "statement": "take, flipaxis, sortaxis, keep_label, morph, lag, maplabel and indexing with a slice, a list, a mask or a larry of bools each rearrange, pick, rename or shift the lines of one axis; whether they return depends on the labels of that axis only. Two such calls on different axes can be swapped: both orders return and give the same labels, dtype and elements, also when morph makes room for missing values and turns integers into floats. So any two programs of such calls that make the same calls in the same order on each axis give the same larry, however the axes are mixed. On one axis, lagging twice in the same direction is lagging once by the sum.", "quantifier": "for all well-formed larrys of any dtype and dimension, all axes (also counted from the end), and all programs of any length", "why_tests_cant": "Tests look at one call at a time; that all interleavings of programs of any length agree is a claim about infinitely many programs.", "anchors": ["la/deflarry.py:1952-1959", "la/deflarry.py:3331-3360", "la/deflarry.py:3593-3611", "la/deflarry.py:3762-3776", "la/deflarry.py:2441-2482", "la/deflarry.py:2696-2700"]}
{"id": "C101", "title": "unique lists the different values of a larry", "statement": "la.unique(y) returns the values held by the cells of y, smallest first: every number, bool or string that occurs exactly once, and at the end one NaN for each cell that holds NaN. These values depend only on what the cells hold, not on the order of the labels, on the sorting method or on the other results asked for. With return_index there is, for each value, the position in y.flatten() of a cell that holds it, no position twice, and the first such position if the sort keeps the order of equal elements. With return_inverse there is, for each position of y.flatten(), the place of its value among the values returned. Nothing else is returned.", "quantifier": "for all well-formed larrys of bools, integers, floats (with NaN and infinities) or strings, of any shape, also without elements, and all sorting methods", "why_tests_cant": "The tests of unique compare a few arrays with np.unique itself; that no value is lost or repeated, that NaNs are not merged and that the positions lead back to the cells has to hold for every larry.", "anchors": ["la/flarry.py:1272-1337"]}
{"id": "C102", "title": "The group methods are the ordinary methods on the part that holds a group", "statement": "For a label b of a group, group_mean(group, axis) holds what y.morph(labels of the group, axis).mean(axis) holds under the other names, group_median what median(axis) holds, and group_ranking under the same names what ranking(axis) holds. A label whose group is None or NaN gets NaN. If all labels are in one group, group_ranking is ranking and group_mean and group_median repeat the mean and the median along the axis; if every label has a group of its own, group_mean and group_median return the elements as floats and group_ranking 0 for a number and NaN for NaN. Groups matter only by which labels they put together: other names or another dtype for the same groups give the same result. A second call with the same groups changes nothing.", "quantifier": "for all well-formed larrys of numbers of any shape, all axes, all 1d group larrys that have the labels of the axis, in any order and with others besides, all group names (strings, numbers, objects, None, NaN), with missing and infinite elements", "why_tests_cant": "The tests of the group methods compare a few small arrays with numbers worked out by hand; that masks, loops and labels together act as separate calls on each group, for every grouping, shape and axis, is a statement about all inputs.", "anchors": ["la/deflarry.py:3239-3286", "la/farray/group.py:10-144"]}
{"id": "C103", "title": "Archives are opened and closed so that every call sees what the calls before it wrote", "statement": "A function of la/io.py given a file name, or a file open for writing, does to the archive what it is to do to its content, and a call that returns leaves no file open that was not open before. It makes no difference to the outcome or the content whether save, load, delete, is_archived_larry and archive_directory are given the name or the open file. So a program of such calls on any number of archives, by name and by file, acts as if only the contents existed, as long as no call leaves a file open, and always if what a call leaves open is closed before the next; and what is in one archive depends on the calls on that archive alone. Exactly these calls leave files open: a call by name that raises while its file is open leaves one (io[key] = y two if the deletion of the old larry raises; load none if the larry cannot be made); a call given an open file none. A file name that does not exist: io[key], lara[index] and lara.shape raise IOError and make nothing, all other calls make an empty archive first. io[key] with a key that is not there leaves the archive open for reading; while that file lives no call changes the archive, and save, delete, io[key] = y, del io[key] and lara[index] = v by its name raise. is_archived_larry raises ValueError if there is nothing under the key, and is True exactly for the keys that are listed.", "quantifier": "for all states of the files (contents, files open for reading or writing), all programs of calls of save, load, delete, is_archived_larry, archive_directory, io[key], io[key] = y, del io[key], key in io, len(io), io.clear(), lara[index], lara[index] = scalar, lara.shape, all keys, larrys and indices, whether they succeed or raise", "why_tests_cant": "The tests make one fresh archive, use it and remove it; which files are open after an arbitrary sequence of calls that may raise anywhere, and what that does to later calls, is a statement about all programs.", "anchors": ["la/io.py:160-203", "la/io.py:310-313", "la/io.py:331-351", "la/io.py:430-453", "la/io.py:501-518", "la/io.py:559-572", "la/io.py:610-631", "la/io.py:635-657", "la/io.py:685-711"]}
{"id": "C104", "title": "Larger data have larger statistics, and statistics lie between the extremes", "statement": "If a larry y has the labels of w, is NaN where w is and has no element above that of w, then no sum, mean, median, maximum, minimum, moving sum/mean/median/max/min or cumulative sum of y is above the one of w of the same name, wherever both are numbers; without infinities the results are NaN at the same places. clip keeps the order of two larrys of the same dtype, and brings every number between its bounds if the larry is float, or int with bounds that are whole or infinite. The minimum is at most the mean and the median, and these at most the maximum (wherever they are numbers). The variance of numbers that are not infinite is at least zero, and zero exactly if all are equal, whenever there are more numbers than ddof; with fewer numbers than ddof it is at most zero (larry([0., 2.]).var(ddof=3) is -2).", "quantifier": "for all pairs of float, int or bool larrys of any shape with at least one element, all axes (and none), all windows and both moving methods, all ddof, all clip bounds lo <= hi", "why_tests_cant": "Inequalities between the results on arbitrary pairs of larrys cannot be enumerated; tests compare single results with literals.", "anchors": ["la/deflarry.py:1103", "la/deflarry.py:1157-1167", "la/deflarry.py:1198", "la/deflarry.py:1270", "la/deflarry.py:1328", "la/deflarry.py:1385", "la/deflarry.py:1422", "la/deflarry.py:1459", "la/deflarry.py:1461-1492", "la/deflarry.py:1538", "la/deflarry.py:1584", "la/deflarry.py: larry.cumsum, cumprod", "la/deflarry.py: larry.clip", "la/deflarry.py:2882-2961", "la/deflarry.py:2963-3003", "la/deflarry.py:3005-3058", "la/deflarry.py:3060-3064", "la/farray/move.py:15-56", "la/farray/move.py:60-123", "la/farray/move.py:167-241"]}
{"id": "C105", "title": "A call that raises leaves everything as it was", "statement": "If a method or function raises, every larry, array and list of labels the program holds shows what it showed before: also for calls that work in place (merge with equal labels, fill, set, y[...] = v, shuffle, shufflelabel, flipaxis and maplabel with copy=False) and for calls that share memory (squeeze, pull, indexing, lix, lrange with label). The exceptions are exactly these: binaryop with missone or misstwo has written the fills when it calls the function given, so a function that raises leaves them in the arguments; maplabel(func, copy=False) without an axis, with a function that raises on a label of axis k, has mapped the labels of the axes before k; flipaxis(copy=False) needs a larry whose labels fit its array. A call on an archive that raises leaves the content of every file as it was (a file that was not there may now be there, empty), except for save, io[key] = y and clear(); save on a key that holds a larry is no exception.", "quantifier": "for all programs (any sharing between the references held), all calls with any arguments, all functions given to maplabel and binaryop, all archives", "why_tests_cant": "Tests check that a bad call raises; whether something was written before the exception depends on every path to every exception, and on which other references share the memory.", "anchors": ["la/deflarry.py: larry.copy, merge, squeeze, getitem", "la/flarry.py: align, binaryop", "la/deflarry.py: larry.copy", "la/deflarry.py: larry.flipaxis", "la/deflarry.py: larry.maplabel", "la/deflarry.py: larry.merge", "la/deflarry.py: larry.shuffle", "la/flarry.py: align", "la/deflarry.py:5017-5074", "la/flarry.py:1385-1405", "la/flarry.py:487-520", "la/flarry.py:1746-1765", "la/flarry.py:1844-1934", "la/deflarry.py:4954-4966", "la/io.py:160-203", "la/io.py:310-313", "la/io.py:331-351", "la/io.py:430-453", "la/io.py:501-518", "la/io.py:559-572", "la/io.py:610-631", "la/io.py:635-657", "la/io.py:685-711"]}
{"id": "C106", "title": "No look-ahead: later data have no influence on earlier results", "statement": "Call some labels later ones, for example the dates after a day t. Run a program twice, on larrys that agree in every cell whose labels are not later ones. Then both runs raise the same exceptions, bind variables of the same labels and dtype, and these agree again in every cell without later labels. This holds of indexing, selecting, arranging, aligning, merging, arithmetic, comparison, stacking, filling and assignment; of lag (nlag > 0), cumsum, cumprod, push, move_func, move_sum, move_mean, move_std, move_min, move_max, move_nanmedian and move_nanranking along an axis whose labels are in time order; of movingsum_forward and lag (nlag < 0) along an axis in reverse time order; and of ranking, quantile, demean, demedian, zscore, the group methods and the reductions along axes that are not the time axis. Outside these conditions results can depend on later data: lag with a negative nlag, movingsum_forward, ranking and demean along time, cumsum against time, vacuum, each with an instance.", "quantifier": "for all sets of later labels, all programs of the methods named with any arguments that meet the conditions, all pairs of initial larrys that agree where no later label is involved", "why_tests_cant": "A test compares a few results on one data set; that no later value enters any earlier result is a statement about pairs of runs of every program and every way the later data could have been.", "anchors": ["la/farray/move.py: move_func_loop, move_func_strides", "la/farray/normalize.py: demean, zscore", "la/farray/group.py", "la/deflarry.py: larry._group_align, group_mean", "la/deflarry.py", "la/deflarry.py: larry.lag", "la/farray/normalize.py: quantile, _quantileraw1d", "la/farray/normalize.py: ranking"]}
{"id": "C107", "title": "Moving sum, mean, minimum, maximum and standard deviation are those of each window", "statement": "For a larry of floats or ints, an axis and a window between 1 and the length of the axis, move_sum, move_mean, move_min, move_max and move_std return a float larry with the labels of the larry. The element at position i of the axis is NaN if the window ending there is not full (i+1 < window); else it is the sum, mean, smallest, largest or standard deviation (ddof 0) of the last window elements of that line, NaN left out, and NaN if they all are. move_sum and move_mean, which keep a running sum, do so if there is no infinity before the window, and are NaN if there is one, however far back. Without infinities each of the five methods returns the same larry as move_func with the corresponding reduction, the moving mean lies between the moving minimum and maximum, and movingsum_forward without skip is flipaxis, move_sum, flipaxis. No element depends on later ones. An axis that does not exist or a window out of range raises ValueError.", "quantifier": "for all larrys of floats or ints of any number of dimensions and size, with NaN and infinities anywhere, all axes, and all windows", "why_tests_cant": "A running sum can drift from the window it stands for only after particular sequences of NaN and infinite values have entered and left; examples check a few short lines, and the values that matter come long after the element that causes them.", "anchors": ["la/deflarry.py:2705-2738", "la/deflarry.py:2740-2773", "la/deflarry.py:2775-2810", "la/deflarry.py:2812-2845", "la/deflarry.py:2847-2880"]}
{"id": "C108", "title": "Adding later data changes nothing that was there before", "statement": "Take a program of larry calls, a set of labels that count as later ones (for example the dates after a day t), and two runs: one on the data without the later labels, one on all data. Calls that are given labels (the constructor, morph) get them without the later ones in the first run. If no call raises in either run, then every larry the first run computes is the one the second run computes, without the later labels: same labels in the same order, same dtype, same values. The program may consist of construction, morph, morph_like, arithmetic and comparison of larrys or with a number, merge with update, align, la.add and the like, stack, sortaxis, keep_label, pull, take, flipaxis, lag, T, swapaxes, insertaxis, maplabel, reductions, cumsum, cumprod, clip, push, ranking, quantile, demean, zscore, the moving window functions, group methods, ismissing and assignment by label or mask, where: calls that look along the time axis look back only (times in order for a positive lag, cumsum, cumprod, push and moving windows, in reverse order for a negative lag and movingsum_forward; ranking, demean, zscore, quantile, group methods, take and reductions to a larry go along another axis); where two larrys are joined the labels of an axis are the same or those of one side ascending; reindexed data have a missing marker (not int or bool); keep_label keeps some label that is not later; pull leaves more than one element; and data that are reduced are not empty. keep_label with a condition that holds of exactly the labels that are not later gives the data so far, so cutting off before or after such a call gives the same larry.", "quantifier": "for all programs of such calls of any length, all larrys of any number of dimensions, sizes, labels and values, and all sets of later labels", "why_tests_cant": "It compares runs on inputs of different size for every possible cut; axis lengths enter window ends, running state, joins and positions everywhere, and a backtest would have to be rerun for every day, program and data set.", "anchors": ["la/deflarry.py:2357-2367", "la/deflarry.py:1461-1492", "la/deflarry.py:2450-2482", "la/deflarry.py:2705-2880", "la/flarry.py:1375-1405"]}
{"id": "C109", "title": "Running totals and differences undo each other", "statement": "For a float larry y, any axis with labels l: (1) s = y.cumsum(axis); s - s.lag(k, axis) returns, on the labels l[k:], the same values as y.move_sum(k, axis) wherever neither the value of y there nor the one k positions before is NaN, and NaN elsewhere (y without infinities, k from 1 to the length of the axis); so s - s.lag(1, axis) is y itself wherever the previous value is not NaN. (2) If all values are finite and the labels ascending, (y - y.lag(1, axis)).cumsum(axis) is what y has grown by since its first value, for all but the first label. (3) If no value is zero, p = y.cumprod(axis); p / p.lag(1, axis) is y on l[1:], and with ascending labels (y / y.lag(1, axis)).cumprod(axis) is y divided by its first value. (4) y.move_sum(k + n, axis) is y.move_sum(k, axis) + y.move_sum(n, axis).lag(k, axis) on l[k:], NaN included, if all values are finite. The labels of the other axes are those of y, those of this axis come out in ascending order; if they are not so in y, summing up the differences gives other values.", "quantifier": "for all float larrys of any number of dimensions, size and labels, all axes, all lags and windows that fit, NaN anywhere where the law allows it", "why_tests_cant": "The laws combine four methods, alignment by label and NaN handling; a wrong offset by one in any of them, or a wrong join, shows only in particular positions and only for some orders of the labels.", "anchors": ["la/deflarry.py: larry.cumsum, cumprod, lag, move_sum, __sub__, __div__, __add__", "la/flarry.py: align"]}
{"id": "C110", "title": "Labels, dtypes and exceptions do not depend on the values", "statement": "Run a program of larry calls twice, on larrys with the same labels and dtypes but different values. Then the same calls raise, with the same exceptions, and the larrys the program computes have the same labels in the same order and the same dtypes. This holds for morph, arithmetic and comparison, align, sortaxis, keep_label, pull, take, flipaxis, lag, T, swapaxes, squeeze, insertaxis, maplabel, indexing with positions and labels, all reductions, cumsum, cumprod, clip, push, ranking, quantile, demean, zscore, moving functions, group methods, ismissing, keep_x without vacuum, merge with update (same dtype, not int or bool), binaryop without join 'skip', stack, set, and assignment by index, label or boolean mask. It does not hold for merge without update, vacuum, cut_missing, keep_x with vacuum, sortby and a mask of integers: there two larrys are given that are alike and are not treated alike.", "quantifier": "for all programs of these calls of any length, all larrys of any shape, labels and dtype in the two runs, all values including NaN and infinities", "why_tests_cant": "A test fixes the values. That no branch on a value leads to an exception or to other labels is a statement about all pairs of runs.", "anchors": ["la/deflarry.py: larry", "la/flarry.py: align, binaryop, stack"]}
{"id": "C111", "title": "What an object used as an index means goes by its type", "statement": "isint is True exactly for Python integers and numpy's signed integers (timedelta64 counts as one), isfloat exactly for floats, isscalar for both. y[o] and each entry of y[o0, o1, ...] (no axis empty): a number of such a type means its integer part, towards zero, as a position; a list of bools means the list of positions 0 and 1, never a mask, so that y[[True, False]] is the second row followed by the first and a list of three or more bools raises IndexError; an array of bools is a mask; bools, unsigned integers, complex numbers, None, Ellipsis and strings raise IndexError. y.lix[o] reads numbers in the same way, but in a tuple of a lix expression a float always raises.", "quantifier": "for all types of objects numpy distinguishes, all finite numbers, all lists and arrays of bools and signed integers, all larrys", "why_tests_cant": "The tests use Python integers and a few arrays; what happens with the other types follows from numpy's class hierarchy and from where a number is rounded.", "anchors": ["la/util/misc.py: isint, isfloat, isscalar, isstring", "la/deflarry.py: larry.__getitem__, Lix.__getitem__"]}
{"id": "C112", "title": "No axis is special", "statement": "Put the axes of a larry in another order (T, swapaxes or any sequence of them). Then every call along an axis gives the reordered larry, along the same axis in its new place, the reordered result with the same dtype, or the same exception: cumsum, cumprod, push, ranking, quantile, demean, zscore, movingsum_forward, the Bottleneck moving statistics, move_func, group_ranking, group_mean, group_median; the reductions along one axis, and prod of floats, whose result has the other axes reordered; take, flipaxis, sortaxis, keep_label, morph, lag, maplabel and indexing of one axis, when they find the labels or positions they look for; the elementwise methods; a op b for two larrys reordered the same way. Reductions of all elements by a function that ignores the order give the same number, and ranking, demean and zscore with axis=None the reordered result; quantile with axis=None does not. Programs of such calls return for both larrys or for neither, and give the reordered result.", "quantifier": "for all valid larrys of any number of axes, all orders of the axes, all axes, all parameters of the calls, all programs", "why_tests_cant": "The tests look at one- and two-dimensional larrys and mostly at axis 0 and the last axis; an implementation that treats one axis differently, or wrongly in three dimensions, can pass them.", "anchors": ["la/deflarry.py: larry.T, larry.swapaxes, larry.__reduce, larry.cumsum, larry.ranking, larry.lag, larry.morph, larry.__getitem__", "la/farray/mov.py: move_func", "la/farray/group.py: group_ranking, group_mean, group_median"]}
{"id": "C113", "title": "What an operator does with the object on its other side", "statement": "Beside a larry of numbers, + - * / // & | take a larry, a scalar of Python or numpy, or an array; the comparisons take also lists and tuples. With numbers that broadcast to the shape of the larry, on either side, the result is a larry with its labels, and what is read with any labels is the value there and the element numpy pairs with it, combined in the order written. Every other object raises TypeError on either side, even in lar == None. If the shapes cannot be broadcast, == returns the plain bool False and != returns True instead of a larry; all other operators raise ValueError. If they can, lar op numbers is a larry, well formed exactly if the numbers fit into its shape. Larrys of different numbers of axes raise IndexError, and the RuntimeError in the reflected divisions is never met.", "quantifier": "for all valid larrys of bools, ints or floats, all operands (larry, scalar of any type, array, list, tuple, anything else), all operators, both sides", "why_tests_cant": "The tests try a few operands per operator, and none that is refused on the left; which of eight nearly equal methods a rarely used combination ends up in, and what it returns, is left open.", "anchors": ["la/deflarry.py: larry.__add__, larry.__sub__, larry.__rsub__, larry.__div__, larry.__rdiv__, larry.__truediv__, larry.__rtruediv__, larry.__floordiv__, larry.__rfloordiv__, larry.__mul__, larry.__and__, larry.__or__, larry.__compare"]}
{"id": "C114", "title": "What assert_larry_equal says about any two objects", "statement": "A dtype or iscopy flag that is not True or False, or a msg that is no string, raises TypeError whatever is compared. Two scalars are complained about under SCALARS exactly if they are not the same string or number (NaN counts as NaN) nor finite and close, and under TYPE exactly if dtype is set and their types differ; original and iscopy have no influence. Two different scalars one of which is a string raise TypeError instead. If exactly one object is of the class larry itself, the one complaint is TYPE whatever the flags. Two larrys of the class, or two of subclasses, are compared as C87 says. Everything else, such as None and None, raises AttributeError. The message of the AssertionError holds msg under a heading of its own and then, indented and in the order of the checks, every complaint's title between lines of dashes as long as it and numpy's text; without the tabs it is exactly the headings and texts.", "quantifier": "for all pairs of objects (larry, instance of a subclass, scalar of any type, anything else), all flags, messages, originals and tolerances", "why_tests_cant": "The tests of this package rely on this function: if it passed where it should fail they would pass too. They never ask what it does with scalars of different types, strings or None.", "anchors": ["la/util/testing.py: assert_larry_equal"]}
{"id": "C115", "title": "Statistics and moving statistics in other units", "statement": "Let y2 be a float larry with the labels of y that holds a*v + b where y holds v (a not 0, NaN stays NaN), for example a*y + b. Along any axis, or over all elements, mean and median of y2 are a times those of y plus b; so are max and min if a > 0, and if a < 0 the max of y belongs to the min of y2 and the other way round; with b = 0 the sum is a times the sum; var is a*a times the variance and std |a| times the standard deviation, for every ddof. The same holds window by window for move_func with these statistics, move_median, move_sum, move_mean, move_min, move_max and move_std. move_ranking does not change under any strictly increasing change of the values. Calls that raise raise the same for both.", "quantifier": "for all float larrys of any shape (infinities and NaN included), all factors a \u2260 0 and shifts b, axes, windows, ddof and both methods of the moving functions", "why_tests_cant": "The tests compute a few statistics of a few arrays; that prices in cents instead of dollars, or returns with the sign turned, give corresponding statistics with NaN, infinities, short lines and running sums is never tried.", "anchors": ["la/deflarry.py: sum, mean, median, max, min, var, std, move_sum, move_mean, move_std, move_min, move_max, move_median, move_ranking, move_func"]}
{"id": "C116", "title": "What an assignment stores", "statement": "Assignment never changes the dtype, the labels or any cell it does not name. y.set(names, v), y[index] = v, y[mask] = v, y.lix[...] = v and y.fill(v) leave v in the cells they name, held as the dtype of y holds it: a float larry holds the same number, an int larry the number truncated toward zero, a bool larry whether it is nonzero (NaN counts as True), an object or string larry v itself; y[index] = z and y.lix[...] = z with a larry z do the same for every value of z under its labels. So a number reads back as the number that was set exactly if the dtype has a place for it, writing back what was read changes nothing, and after any sequence of set calls every cell holds the last value written to it in this sense. set raises what get raises for names that are not there, and ValueError for a NaN in an int larry.", "quantifier": "for all valid larrys of every dtype, all names, indices, masks and lix expressions, all values (finite numbers for int larrys, numbers for bool and float, strings for str) and all sequences of set calls", "why_tests_cant": "The tests set floats in float larrys and ints in int larrys; that every way of assigning treats a value of another type alike, and that nothing else changes over any history, is a statement about all of them.", "anchors": ["la/deflarry.py: larry.set, __setitem__, fill", "la/deflarry.py: Getitemlabel.__setitem__ (lix)"]}
{"id": "C117", "title": "Labels with nothing under them do not count", "statement": "Adding labels to a float larry under which there is only NaN, on any axes and anywhere between the others, changes no statistic: sum, prod, max, min, mean, median, var and std (along an axis or of everything) give the same values under the labels that were there and NaN under the new ones; ranking with norm '-1,1', demean, demedian and zscore, quantile, the elementwise methods and the arithmetic operators between two larrys give what they gave, with NaN under the new labels; so do cumsum and cumprod if the old labels keep their order along the axis; and so does any chain of these calls. Morphing a float larry onto more labels, and aligning two of them with an outer join, add such labels; vacuum of a float larry without infinities removes only such labels.", "quantifier": "for all valid float larrys of any number of dimensions and any size, all sets of added labels on all axes, all axes, all centres and scales that skip NaN, all chains of calls", "why_tests_cant": "A test pads one larry and compares one method; that padding by align or morph is harmless for every statistic and every chain of calls, wherever the labels go and however many there are, quantifies over all of them.", "anchors": ["la/deflarry.py: sum, prod, max, min, mean, median, var, std, cumsum, cumprod", "la/deflarry.py: ranking, quantile, demean, demedian, zscore, morph, vacuum", "la/flarry.py: align, binaryop"]}
{"id": "C118", "title": "Whole numbers count as floats", "statement": "What la computes with a number does not depend on whether it is stored as a bool, an int or a float. If two larrys have the same labels and the same numbers in the same cells, whatever their dtypes, then sum, mean, median, max, min, var, std, any, all, lastrank, prod, cumsum, cumprod, push and a statistic in a moving window (move_median, move_ranking, move_func, by loop or by strides) give the same numbers under the same labels, or raise the same exception; ranking, quantile, demean, demedian, zscore, movingsum_forward, move_sum, move_mean, move_std, move_min, move_max, group_ranking, group_mean and group_median return the very same larry; the elementwise methods give the same numbers (the minus sign if both larrys or neither are bool); and so do the operators, and whole formulas of larrys and scalars, except for: + - * between bools (which stay bools), the / of Python 2 between ints (rounded down), and // with a zero divisor (0 for ints, inf or NaN for floats). A reduction of a larry with no elements along an axis also tells ints (ValueError) from floats (NaN).", "quantifier": "for all pairs of valid larrys of bools, ints or floats with equal labels and equal numbers, of any number of dimensions, all axes, windows, norms, groups and all formulas built from elementwise methods, operators and scalars", "why_tests_cant": "The tests run a method on one dtype; that the int path and the float path of every method agree on all numbers, and exactly which operators are the exceptions, is a statement about pairs of runs on all inputs.", "anchors": ["la/deflarry.py: sum, prod, mean, median, max, min, var, std, any, all, lastrank, cumsum, cumprod, push", "la/deflarry.py: ranking, quantile, demean, demedian, zscore, movingsum_forward, move_*, group_ranking, group_mean, group_median", "la/deflarry.py: __add__ \u2026 __or__, __neg__, __abs__, log, exp, sqrt, sign, power, isnan, nan_replace, astype"]}
{"id": "C119", "title": "The laws of algebra hold for larrys", "statement": "Take two expressions of int and float larrys and finite scalars, built with + - * unary - and +, positive powers and, in Python 3, /. If they contain the same larrys and are equal as expressions of numbers, they give larrys with the same labels in the same order and the same numbers, whatever the labels of the larrys and however they overlap, as long as the larrys hold no infinities and no divisor is zero; missing values are missing in both. So s * (t + u) is s * t + s * u and (s - t) * (s + t) is s**2 - t**2. If the second contains fewer of the larrys, the two agree under the labels of the first, except that the first is NaN where one of its larrys is: (s + t) - t is s, and x * y / y is x, under the common labels where t and y are not missing. With infinities the laws fail: (y + y) - y is NaN where y is infinite.", "quantifier": "for all algebraic expressions of any depth, all valid int and float larrys of any equal number of dimensions, all labels and overlaps, NaN anywhere, all identities between the expressions", "why_tests_cant": "A test evaluates one identity on one pair of larrys; that every algebraic identity survives the alignment of labels and the promotion of dtypes quantifies over all identities and all larrys.", "anchors": ["la/deflarry.py: __add__, __radd__, __sub__, __rsub__, __mul__, __rmul__, __div__, __rdiv__, __truediv__, __rtruediv__, __neg__, __pos__, power", "la/flarry.py: align, binaryop"]}
{"id": "C120", "title": "Where a result is missing depends only on what is missing", "statement": "Take two sets of float larrys without infinities that have the same labels and NaN in the same places, whatever the numbers elsewhere. Run the same program on both: any sequence of creating, selecting, rearranging, aligning, morphing, lagging, merging and setting values, + - and *, sum, mean, median, max, min, prod, var and std (ddof at most 1), lastrank, cumsum, cumprod, clip between numbers, push, ranking, quantile, demean, demedian, movingsum_forward, move_sum, move_mean, move_std, move_min, move_max, vacuum and cut_missing. The same calls raise, with the same exceptions, and the resulting larrys have the same labels and NaN in the same places, and no infinities. So the gaps in a result can be found by running the program on zeros. The same holds of reductions to a single element, of sign, power, abs, unary minus, exp and nan_replace with a number, and ismissing gives the same larry. It does not hold of /, zscore and var or std with ddof above 1: there a zero divisor makes NaN or infinity out of numbers.", "quantifier": "for all programs of these calls of any length with any arguments, all valid float larrys of any dimension and label type, NaN anywhere, all numbers in the other places", "why_tests_cant": "A test compares one program on a few pairs of larrys; that no number, however large, small or repeated, can make a value missing or a missing value appear quantifies over all numbers and all programs.", "anchors": ["la/deflarry.py: __add__, __sub__, __mul__, sum, prod, mean, median, std, var, min, max, lastrank, cumsum, cumprod, clip, push, ranking, quantile, demean, demedian, movingsum_forward, move_sum, move_mean, move_std, move_min, move_max, vacuum, cut_missing, merge, ismissing", "la/farray/normalize.py: lastrank, ranking, quantile, demean, demedian, push", "la/farray/move.py: movingsum_forward"]}
{"id": "C121", "title": "More data never makes a result missing", "statement": "Take two sets of float larrys without infinities that have the same labels, and let the second have a number wherever the first has one; it may have more numbers, and other numbers. Run the same program on both: any sequence of creating, selecting, rearranging, aligning, morphing, lagging, merging with update=True and setting values, + - and *, sum, mean, median, max, min, prod, var and std (ddof at most 1), lastrank, cumsum, cumprod, clip between numbers, push, ranking, quantile, demean, demedian, movingsum_forward, move_sum, move_mean, move_std, move_min and move_max. The same calls raise, with the same exceptions, and each result from the second set has the same labels as that from the first, no infinities, and a number wherever the first has one. The same holds of reductions to a single element, of sign, power, abs, unary minus, exp and nan_replace with a number. It does not hold of x / x.demean(), where a number that comes in can turn another element into 0/0, of var or std with ddof above 1, and merge with update=False raises if the data that came in make an overlap.", "quantifier": "for all programs of these calls of any length with any arguments, all valid float larrys of any dimension and label type, NaN anywhere, all numbers in the other places", "why_tests_cant": "A test fills one gap in one larry and runs one program; that no number filled in anywhere can lose a result, through windows, running sums, ranks and merges, quantifies over all gaps, numbers and programs.", "anchors": ["la/deflarry.py: __add__, __sub__, __mul__, sum, prod, mean, median, std, var, min, max, lastrank, cumsum, cumprod, clip, push, ranking, quantile, demean, demedian, movingsum_forward, move_sum, move_mean, move_std, move_min, move_max, merge", "la/farray/normalize.py: ranking, quantile, demean, demedian, push, lastrank", "la/farray/move.py: movingsum_forward"]}
{"id": "C122", "title": "A negative skip of movingsum_forward counts from the end, or raises", "statement": "The documentation of movingsum says that skip cannot be negative; the code does not check it. For a larry whose axis has n labels and a window from 1 to n: a skip from -n to -window does not raise and gives what the skip n + skip gives, so that the result at t is the moving sum of the window elements that start at t + n + skip. A skip between -window and 0 raises ValueError, and so does a skip below -n, with one exception: if the window is the whole axis and skip is -n - 1, or the axis has one label, nothing is raised, the first two elements along the axis are both the sum of the whole line (with norm scaled by window over the number of numbers, NaN if all is missing) and the rest is NaN. With skip >= 0 the result and the exceptions are those of C51.", "quantifier": "for all valid numeric larrys of any dimension and label type, all axes, windows, integer skips and norm; the sums for lines without infinities", "why_tests_cant": "Which negative skips raise depends on how the lengths of three slices and numpy's broadcasting of length one work out for each axis length, window and skip; the silent ones give plausible numbers, and a test only covers a few triples.", "anchors": ["la/farray/move.py: movingsum, movingsum_forward", "la/deflarry.py: movingsum_forward"]}
{"id": "C123", "title": "Group means and medians stay among the group, and subtracting them makes a larry group neutral", "statement": "Where group_mean or group_median gives a number, the group of that label has on the same line an element that is not above it and one that is not below it. If a larry y has the labels of w, is NaN where w is and has no element above that of w, then no group mean or median of y is above that of w wherever both are numbers; without infinities they are also NaN at the same places. Without infinities a group mean or median is NaN exactly if the label has no group or all elements of its group on that line are NaN; a group ranking is NaN exactly if the label has no group or the element is NaN. If y has no infinities, y - y.group_mean(group, axis) does not raise and has the labels of y; it is NaN exactly where y is and for labels without a group, and its group means are 0 wherever the group has a number on the line and NaN elsewhere; the same with group_median in both places.", "quantifier": "for all valid numeric larrys of any dimension and label type, all axes, all 1d group larrys that know every label of the axis (None and NaN are no group), NaN anywhere", "why_tests_cant": "A test groups a few numbers in one way; that the means of all groups vanish after the subtraction, whatever the groups, gaps and other axes, quantifies over all partitions of the labels and all data.", "anchors": ["la/farray/group.py: group_mean, group_median, group_ranking, unique_group", "la/deflarry.py: group_mean, group_median, group_ranking, _group_align, __sub__"]}
{"id": "C124", "title": "Stacked larrys come apart again, and a stack agrees with la.add, la.multiply, merge and panel", "statement": "z = stack(mode, **lars) of 2d number larrys. z.pull(key, 0) is lars[key] on the rows and columns of z, as floats, NaN in cells it does not have; with mode='union', z.pull(key, 0).morph_like(lars[key]) is lars[key] as floats. Each statistic along axis 0 (sum, mean, median, var, std, max, min, any, all: C91) gives under (r, c) that statistic of what the larrys have under (r, c), in the order of the sorted keywords. panel(z) has a row for each (r, c) and a column for each keyword, holding the same values. For float larrys without infinities and empty axes, stack('union', **lars).sum(0) has the same values under the same names as calls of la.add(a, b, join='outer', missone=0) that add up all the larrys, and .prod(0) as la.multiply(a, b, join='outer', missone=1), whatever the order and parentheses of the calls; for float larrys without infinities stack('union', **lars) has the same values under the same names as the larrys lars[key].insertaxis(0, key) put together with merge in any order. If the labels of the larrys are in ascending order, the results are also equal element by element; else the order of labels can differ, since stack always sorts. With infinite numbers merge gives something else.", "quantifier": "for all numbers of keywords and larrys, all label types with an order, any overlap of rows and columns, NaN anywhere, any order and parentheses of the calls", "why_tests_cant": "That two different routes (one loop over sorted keywords with morph, a tree of aligned calls or merges) always give the same cells quantifies over all label sets, overlaps, gaps and trees of calls; a test compares them on a few tables.", "anchors": ["la/flarry.py: stack, panel, add, multiply, binaryop, align", "la/deflarry.py: pull, morph_like, insertaxis, merge, sum, prod"]}
{"id": "C125", "title": "Larrys in for loops, with in, in conditions, chained comparisons, max, min and lists", "statement": "`for item in y` over any larry ends without an exception and gives exactly one item per label of axis 0, in that order: the value for a one-dimensional larry, otherwise the well-formed larry of the remaining axes (same dtype, labels y.label[1:]) holding the values at that label. `a, b, ... = y` gives these items if their number fits and raises ValueError if not. `v in y` for a number and a one-dimensional larry is True exactly when some value is that number (1, 1.0 and True are the same number; NaN is never found). Because larry has no __bool__ and no __len__, a larry is true in a condition whatever it holds; hence, exactly: `v in y` is True for every number v as soon as a larry of two or more axes has a row; `z in y` for a larry z is False if axis 0 of y is empty, else True if y is one-dimensional or z has one axis less than y, else IndexError; a comparison of two larrys used as a condition is true if they have the same number of axes and raises IndexError if not; `a < y < b` (and with any other comparisons) is just `y < b` when a is a number or a larry with as many axes; Python's max(y, z, ...) and min(y, z, ...) return the last argument; lars.index(z) is 0 and lars.count(z) is len(lars) for a list of larrys with as many axes as z.", "quantifier": "all well-formed larrys of bool, int and float data, any labels and any number of axes; all numbers and larrys looked for; all six comparisons; lists of any length", "why_tests_cant": "nothing in the class is written for these uses; the outcome follows from __getitem__ raising IndexError at exactly the right index and from rules of Python, for every shape. A test on a larry that does contain the number cannot see that the answer is always True", "anchors": ["la/deflarry.py:18-5010", "la/deflarry.py:1661-1725", "la/deflarry.py:1754-1765"]}
{"id": "C126", "title": "Arithmetic with larrys of Python objects", "statement": "For object larrys (strings, fractions, dates, sets, instances of any class) a binary operator of two larrys with as many axes gives the inner join of the labels, and in each cell Python's `u op w` of the two cells at its labels, in this order; the result is well-formed with dtype object, and it exists exactly when no such pair raises, otherwise the exception of one of the pairs escapes. (Different numbers of axes: IndexError.) `y op other` with a scalar or array that broadcasts to the shape of y is Python's `v op w` cell by cell in the same sense, and `-y` is `-v`. With the larry on the right, `other op y` is computed as `v + w`, `v * w`, `-(v - w)`, `w / v`, `w // v` (v the cell, w the element on the left). So it is Python's `w op v` for the divisions always, for + and * if the elements that meet commute, and for - if turning the difference round changes its sign; but 'a' + y appends the 'a' to every string instead of prefixing it, and an array of dates minus a larry of time spans raises TypeError.", "quantifier": "all behaviours of Python's operators on the objects (including exceptions), all well-formed larrys with any labels, all arrays that broadcast to the shape", "why_tests_cant": "tests use a few kinds of objects; which orders of operands are right depends on the algebra of the objects, and whether an exception escapes depends on every pair of cells that meet after alignment", "anchors": ["la/deflarry.py:464-468", "la/deflarry.py:675-690", "la/deflarry.py:720-737", "la/deflarry.py:784-794", "la/deflarry.py:886-908", "la/deflarry.py:954"]}
{"id": "C127", "title": "The statistics agree with one another", "statement": "For every well-formed bool, int or float larry y with at least one element, and for axis None or any valid axis, the following hold between what the methods return, cell by cell (results are all scalars, or all well-formed larrys with the same labels). (1) If no element is infinite, y.sum(axis) is y.mean(axis) times y.isfinite().sum(axis); where that count is 0 both are NaN. (2) If no element is infinite, y.var(axis) is (y*y).mean(axis) minus the square of y.mean(axis), NaN together. (3) If no element of y or z is infinite, they have the same labels and NaN at the same places, and not both are bool, then (y+z).sum(axis) is y.sum(axis) plus z.sum(axis), and likewise the means. With NaN at different places, or two bool larrys, this fails. (4) For int and float y, infinities allowed, y.min(axis) is the negative of (-y).max(axis) and y.max(axis) that of (-y).min(axis). (5) For bool y, y.any(axis) is the opposite of (~y).all(axis), y.all(axis) of (~y).any(axis), y.any(axis) is True exactly where y.sum(axis) is positive, and y.all(axis) exactly where (~y).sum(axis) is 0. (6) If no element is infinite, sum, mean, median, max and min are NaN exactly where y.isnan().all(axis) is True.", "quantifier": "all bool, int and float larrys with any number of axes, any shape without an empty axis, any labels and any pattern of NaNs; axis None and every positive or negative axis", "why_tests_cant": "tests compare each method with numbers worked out by hand for a few arrays; that different methods, which go through different bottleneck functions and different NaN rules, fit together is a statement about all arrays", "anchors": ["la/deflarry.py:464-637", "la/deflarry.py:646-690", "la/deflarry.py:910-954", "la/deflarry.py:1069-1105", "la/deflarry.py:1169-1200", "la/deflarry.py:1235-1270", "la/deflarry.py:1330-1585"]}
{"id": "C128", "title": "The statistics of two parts give that of the whole", "statement": "Cut a bool, int or float larry y with elements along an axis into two non-empty parts a and b that together hold each label of the axis once, in any order, by any two of take, keep_label, morph, sortaxis or flipaxis. Then for o the axis or None, cell by cell (all scalars, or all well-formed larrys with the same labels): y.max(o) is the greater of a.max(o) and b.max(o), y.min(o) the lesser of the minima, y.any(o) is a.any(o) or b.any(o), y.all(o) is a.all(o) and b.all(o); if no element is infinite, y.sum(o) is a.sum(o) + b.sum(o) and y.mean(o) a weighted average of a.mean(o) and b.mean(o) with positive weights, and y.median(o) is not outside the range from a.median(o) to b.median(o). Where the result of one part is NaN (it holds nothing but NaN) the result of the whole is that of the other part. The numbers of finite elements add up too: y.isfinite().sum(o) is a.isfinite().sum(o) + b.isfinite().sum(o) (so with C127 the means are weighted by these numbers), and likewise for isnan and isinf.", "quantifier": "all bool, int and float larrys with any number of axes, labels and NaNs, every axis, every way to divide the labels of the axis between two non-empty parts", "why_tests_cant": "tests reduce whole arrays; that results of pieces can be pooled, NaN rules included, concerns every array and every way of cutting it", "anchors": ["la/deflarry.py:1069-1105", "la/deflarry.py:1169-1200", "la/deflarry.py:1387-1585", "la/deflarry.py:1889-1935", "la/deflarry.py:2396-2475", "la/deflarry.py:3289-3350", "la/deflarry.py:3613-3745"]}
{"id": "C129", "title": "Covariance, variance and correlation agree", "statement": "For a 2d int or float larry y without infinities, let c = la.cov(y.demean(1)) (whenever cov returns). Then the diagonal of c is y.var(1), row by row and also with missing values. If nothing is missing, the element of c under two rows is the mean of their products less the product of their means, its square is at most the product of the two variances, and la.farray.correlation of the two rows as arrays is c[a,b] over the product of the square roots of c[a,a] and c[b,b], or NaN if one of these is 0.", "quantifier": "all 2d int and float larrys without infinities, any number of rows and columns and any labels; for the diagonal any pattern of missing values", "why_tests_cant": "cov, var, demean and correlation are separate pieces of code (a matrix product with a mask, bottleneck, numpy means) that tests compare with numbers for a few arrays; that they fit together is a statement about all arrays", "anchors": ["la/flarry.py:1471-1502", "la/farray/misc.py:37-160", "la/deflarry.py:1330-1385", "la/deflarry.py:3068-3115", "la/farray/normalize.py"]}
{"id": "C130", "title": "Normalised larrys are centred", "statement": "For every well-formed bool, int or float larry y with at least one element, axis None or any axis for which the call returns: (1) y.ranking(axis, norm='-1,1') has sum and mean 0 along that axis, whatever the ties, NaN and infinities, and NaN exactly on lines with nothing but NaN. (2) With norm '0,N-1' the mean is (N-1)/2, N the length of the line with its NaN. (3) If y has no infinities, y.demean(axis).mean(axis) and y.demedian(axis).median(axis) are 0, NaN exactly on lines with nothing but NaN. (4) y.zscore(axis) has mean 0 and variance 1 on lines whose standard deviation is a (rational) number other than 0, and NaN for both where it is 0 or nothing is there. (5) y.group_ranking(group, axis).group_mean(group, axis) is 0 for labels whose group has something on the line, NaN elsewhere. With norm 'gaussian' and ties the mean need not be 0.", "quantifier": "all larrys, axes, group larrys, patterns of ties and NaN", "why_tests_cant": "The sum of ranks with ties is an identity over all tie patterns and lengths; tests fix a few arrays, and in floating point only compare up to rounding.", "anchors": ["la/farray/normalize.py: ranking, demean, demedian, zscore", "la/farray/group.py: group_ranking, group_mean", "la/deflarry.py: larry.ranking, demean, demedian, zscore, group_ranking"]}
{"id": "C131", "title": "Standard deviations and z-scores are the textbook ones, over the real numbers", "statement": "For every float array without infinities, axis None or any axis in range: (1) std(axis, ddof) has NaN exactly where there is no number along the axis, and elsewhere, for ddof less than the number of numbers, the unique number s >= 0 with s*s*(n - ddof) equal to the sum of squared distances from the average; it is 0 exactly if the numbers do not differ; scaling the numbers by a multiplies it by |a| and moving them leaves it. With ddof = n it is NaN (numbers all equal) or inf, with ddof > n it is 0 (all equal) or NaN. (2) zscore(axis) keeps the shape; NaN stays NaN; on lines whose numbers do not differ all results are NaN; on all other lines the results are the numbers moved and scaled such that they sum to 0 and their squares sum to their number, which determines them. (3) Order and ties are kept, a change of units or origin does not change the z-scores, a change of sign changes their sign, z-scores of z-scores are the same, and none of n z-scores exceeds sqrt(n-1) in size. (4) For two arrays with NaN in the same places, correlation along the axis is the average product of the z-scores on every line on which both vary. (5) An axis out of range is a ValueError.", "quantifier": "all arrays of reals and NaN of any shape, axes, ddof", "why_tests_cant": "The z-scores of almost every array are irrational, so a test compares to rounding on chosen arrays; the identities and bounds are over all arrays.", "anchors": ["la/deflarry.py: larry.std, larry.zscore", "la/farray/normalize.py: demean, zscore", "la/farray/misc.py: correlation"]}
{"id": "C132", "title": "Logarithms turn products into sums, and back", "statement": "For every float array x without negative elements (zeros, inf and NaN allowed), axis None or any axis in range: exp(log(x)) is x, and log(exp(y)) is y for every array y. log(x*w) = log(x) + log(w), log(x/w) = log(x) - log(w), exp(y+v) = exp(y)*exp(v), exp(y-v) = exp(y)/exp(v) element by element, infinities and NaN included. sqrt(x)*sqrt(x) is x and log(sqrt(x)) is log(x)/2. exp(log(x).sum(axis)) = x.prod(axis) and log(x).sum(axis) = log(x.prod(axis)); exp(log(x).cumsum(axis)) = x.cumprod(axis), and the other way round; exp(log(x).mean(axis)) = geometric_mean(x, axis) without its check. For arrays without infinities: sum and prod are the sum and the product of the numbers on each line, NaN if there are none; cumsum and cumprod have NaN where the array has it and elsewhere the sum and product of the numbers up to there; without an axis or with one out of range they raise ValueError. With a negative element exp(log(x).sum()) is the product of the others: its logarithm NaN counts as missing.", "quantifier": "all arrays of reals, NaN and infinities of any shape, axes", "why_tests_cant": "An identity of real functions over all arrays and patterns of zeros, NaN and infinities; a test compares rounded numbers of a few arrays.", "anchors": ["la/deflarry.py: larry.log, exp, sqrt, sum, prod, mean, cumsum, cumprod", "la/farray/misc.py: geometric_mean"]}
{"id": "C133", "title": "The methods of a larry compute what the functions of its array compute", "statement": "For every valid larry y of bools, ints or floats with elements, axis None or any axis in range (counted from either end): mean, sum and var return a larry or scalar whose shape and elements are those of the reduction of the array of y over the real numbers, which C131 and C132 characterise; so does prod of float larrys, and std where the variances have rational roots. demean keeps the labels and the shape and has the elements of the function demean of the array; zscore likewise where the standard deviations are rational. cumsum and cumprod of float larrys keep labels and shape and have the elements of the running sums and products of the array. NaN and infinities included.", "quantifier": "all larrys of numbers, axes, ddof", "why_tests_cant": "It equates two formulations for all arrays, shapes, axes and patterns of NaN and infinities; a test compares one pair of rounded results at a time.", "anchors": ["la/deflarry.py: larry.mean, sum, prod, var, std, demean, zscore, cumsum, cumprod, __reduce", "la/farray/normalize.py: demean, zscore"]}
{"id": "C134", "title": "Mean and median are the nearest numbers, and how far apart they can be", "statement": "For every larry y of bools, ints or floats with elements, axis None or any axis in range, and every line without infinities: if the line has no number, mean, median and var return NaN for it. Otherwise the mean returned has a smaller sum of squared distances to the numbers on the line than any other number; no number has a smaller sum of distances than the median returned; var with ddof 0 is the least mean of the squared distances from a number. So it is at most (hi - lo)**2/4 when the numbers are between lo and hi; at most n*var/t**2 of the n numbers are t or more away from the mean (Chebyshev); and mean and median are at most one standard deviation apart: the square of their difference is at most var.", "quantifier": "all larrys of numbers, axes, lines, numbers c, t, lo, hi", "why_tests_cant": "The optimum is over all numbers and the inequalities over all lines; a test compares a few candidates for a few lines.", "anchors": ["la/deflarry.py: larry.mean, median, var, __reduce"]}
{"id": "C135", "title": "Group means split the variance", "statement": "Let y be a larry of bools, ints or floats with elements, all of them numbers (no NaN, no infinity), and group a group larry that gives every label of the axis a group. Then z = y.group_mean(group, axis) and n = y - z return, have the labels of y and hold only numbers; y.mean(axis) and z.mean(axis) are the same, n.mean(axis) is 0, and y.var(axis) is z.var(axis) + n.var(axis): the variance between the groups plus that within them. With a missing element the means can differ, since the group mean is also put where the element is missing.", "quantifier": "all larrys without missing elements, groups (of any dtype and order) that cover the axis, axes, Python 2 and 3", "why_tests_cant": "The identity ties four methods together for all numbers and all ways of forming groups; a test adds up one case.", "anchors": ["la/deflarry.py: larry.group_mean, larry.__sub__, larry.mean, larry.var", "la/farray/group.py: group_mean"]}
