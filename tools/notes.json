{
 "C01": [
  "proved",
  "listmap, both values of ignore_unmappable, for lists over any type with decidable equality."
 ],
 "C02": [
  "proved",
  "listmap_fill, any integer fill."
 ],
 "C03": [
  "proved",
  "Cython and Python loops return equal results and exceptions; C int overflow (lists longer than 2^31) is not modelled."
 ],
 "C04": [
  "proved",
  "flattenlabel in both orders, exact positions, and the ValueError."
 ],
 "C05": [
  "proved",
  "list2index over any linear order."
 ],
 "C06": [
  "proved",
  "Constructor with a list of label lists and with label=None; label arguments of other sequence types are not representable in the model."
 ],
 "C07": [
  "proved",
  "get on every valid larry, result and exception."
 ],
 "C08": [
  "proved",
  "set and arbitrary sequences of set calls; the cast of the new value to the array's dtype is a parameter."
 ],
 "C09": [
  "proved",
  "All elementwise operators (operator and dtype rule are parameters)."
 ],
 "C10": [
  "proved",
  "Operand order and set iteration order."
 ],
 "C100": [
  "proved",
  "Each call has to find what it looks for: keep_label that keeps nothing returns larry([]), after which the other axis is gone (C100_keep_nothing, finding 43), and maplabel must not make two labels of an axis equal (the code does not check). For the other calls C100_returns shows that returning is the same as finding what they look for."
 ],
 "C101": [
  "proved",
  "np.unique is part of the model (NumPy 1.6 and 1.7); the sort inside it is any function that sorts arrays of one dtype (exMergesort_sorts, exMergesort_stable show there is one). Arrays of objects are left out. Positions count along the flattened data: with more than one axis they are no positions for y[...], though the docstring writes lar[indices] (C101_index_is_flat, finding 44)."
 ],
 "C102": [
  "proved",
  "group_median uses the median of the model of bn.nanmedian (medianOf), the one y.median uses. The sort of the group names is any function that permutes; Python 3 raises TypeError when group names of different kinds are sorted, which the model leaves out (as in C53). Mean and median along the axis need a larry with elements."
 ],
 "C103": [
  "proved",
  "h5py and HDF5 are part of the trusted base: h5py.File(name) opens for writing unless the file is open for reading, then for reading; h5py.File(name, 'r') raises IOError if there is no such file; a write to a file open for reading raises (which exception is not claimed). Permissions, other processes and the moment the interpreter frees a traceback are not modelled. What each function does to the content is Verif/IO.lean (C33, C56, C60, C68)."
 ],
 "C104": [
  "proved",
  "Floats are exact rationals with NaN and infinities; with rounding, the mean of equal numbers may exceed their maximum in the last bit. A sum of infinities of both signs is NaN, so monotonicity is claimed where both results are numbers (C104_infinities)."
 ],
 "C105": [
  "proved",
  "In-place operations of numpy (putmask, x[...] = v, shuffle) are taken to check their arguments before they write. For save, io[key] = y and clear() see C56_failed_set, C56_brick and C59."
 ],
 "C106": [
  "proved",
  "A step or a window that is not in the class of calls (vacuum, cut_missing, keep_x, sortby, merge with update=False, axis=None for ranking, demean and zscore) either looks ahead or decides by the data which labels or exceptions there are."
 ],
 "C107": [
  "proved",
  "Bottleneck's running sum and count loop is modelled for move_sum and move_mean; move_min, move_max and move_std are modelled by Bottleneck's documented result for each window. Numbers are exact, so rounding of the running sum is not covered. Boolean arrays, for which Bottleneck falls back on SciPy, are left out. Finding 51: one infinity turns all later running values of its line into NaN."
 ],
 "C108": [
  "proved",
  "Stated for runs in which no call raises: a shorter axis can make a call raise (a window longer than the axis, a label not there yet). squeeze, getitem and lix by position, align_axis, sortby, vacuum, cut_missing and keep_x are not in the class; for the last ones see C106_vacuum_ahead. Findings 52 and 53, and C106's findings about calls that look ahead, show that the conditions are needed."
 ],
 "C109": [
  "proved",
  "Exact arithmetic, no rounding. Finding 54 shows that ascending labels are needed for the sums and products of differences and ratios."
 ],
 "C11": [
  "proved",
  "Elementwise comparisons between larrys."
 ],
 "C110": [
  "proved",
  "For the calls in the modelled language of programs (Cmd). The conditions are those listed in the statement; each call left out has a witness that it reads the values."
 ],
 "C111": [
  "proved",
  "The class hierarchy of numpy's scalar types is modelled as a table. NaN and infinities as indices, lists of floats, float arrays and slices with float bounds are not modelled. The meaning is given by reduction to the integer indices of C33 and C35."
 ],
 "C112": [
  "proved",
  "C112_prod is for floats and larrys with cells. For moves the calls are shown to return together and not which exception is raised; keep_label when no label is left and maplabel when it makes duplicates are not part of programs (findings of C100)."
 ],
 "C113": [
  "proved",
  "An array or numpy scalar on the left of a comparison is left out (numpy 1.6 does not always hand it to the larry), and a bool minus a bool larry (C74). Lists and tuples are given by the array numpy makes of them. Strings and objects as data are not modelled."
 ],
 "C114": [
  "proved",
  "Numpy's assert_equal and assert_almost_equal of two scalars are modelled for numbers and strings, with the tolerance a parameter; their texts are arbitrary. Complex numbers are not modelled. Objects of the last kind have no attribute label."
 ],
 "C115": [
  "proved",
  "The square root is a parameter that takes a*a*x to |a| times the root of x. Floats are exact rationals with NaN and the infinities. A sum with b not 0 changes by b times the number of values that are not NaN, shown by a case."
 ],
 "C116": [
  "proved",
  "numpy's conversion on assignment is given by its documented result. NaN and infinities into an int larry by indexing, strings and None into numbers, overflow and the length of string dtypes are not covered."
 ],
 "C117": [
  "proved",
  "any, all, ranking with the other norms, lastrank, push and the moving statistics do count empty labels, and vacuum drops infinities (C117_any_counts_nan, C117_ranking_counts, C117_lastrank_counts, C117_push_fills, C117_vacuum_infinity); quantile is stated along an axis with at most as many bins as the smaller larry has labels, the root behind std maps NaN to NaN, power is with a positive integer exponent."
 ],
 "C118": [
  "proved",
  "Ints are unbounded in the model, so int overflow, which floats do not have, is outside it, and so is the rounding of large ints to floats. clip is not covered: it casts its bounds to the dtype of the larry."
 ],
 "C119": [
  "proved",
  "Numbers are exact: the rounding of floats, which breaks these laws in the last digit, is outside the model. Bool larrys, whose arithmetic is logic, are excluded."
 ],
 "C12": [
  "proved",
  "Includes a proof that a larger broadcast shape yields an invalid larry (the code does not check)."
 ],
 "C120": [
  "proved",
  "Floats are exact numbers, so that sums and products do not overflow to infinity. The functions that are parameters of the model are assumed to give a number for a number (square root of a number not below zero, ndtri between 0 and 1) and NaN for NaN; argsort sorts."
 ],
 "C121": [
  "proved",
  "Floats are exact numbers, so that sums and products do not overflow to infinity. The functions that are parameters of the model are assumed to give a number for a number (square root of a number not below zero, ndtri between 0 and 1) and NaN for NaN; argsort sorts."
 ],
 "C122": [
  "proved",
  "Whether numpy raises is decided on the lengths of the slices, as numpy does. Floats are exact numbers. Larrys of strings and objects are left to the note of C51."
 ],
 "C123": [
  "proved",
  "Floats are exact numbers, so that a mean that is zero is exactly zero. With an infinity in the group the mean is infinite and the difference NaN (C123_infinity)."
 ],
 "C124": [
  "proved",
  "Floats are exact numbers, so that sums and products do not depend on the order. Labels of the keywords and of the rows and columns are of one ordered type."
 ],
 "C125": [
  "proved",
  "Python's loop, membership test, unpacking, truth test, chained comparison, max/min and list.index/count are modelled on top of __getitem__ and the comparisons; objects looked for are Python numbers and larrys."
 ],
 "C126": [
  "proved",
  "Python's operators on objects are a parameter; numpy's object loop is modelled as calling them element by element and letting the first exception through."
 ],
 "C127": [
  "proved",
  "Numbers are exact rationals with NaN and infinities, so rounding is not part of the claim."
 ],
 "C128": [
  "proved",
  "Exact rational arithmetic; rounding is not part of the claim."
 ],
 "C129": [
  "proved",
  "Exact arithmetic (rational, real for the roots); rounding is not part of the claim. var divides by the number of values (ddof=0), as cov does."
 ],
 "C13": [
  "proved",
  "Includes the exact condition for the cast to float, the exceptions, negative axes."
 ],
 "C130": [
  "proved",
  "Over exact rationals; the square root is a parameter, so zscore is settled on lines whose standard deviation is rational. C130_gaussian_ties is the witness for the last sentence."
 ],
 "C131": [
  "proved",
  "On the arrays, with exact real arithmetic and the real square root; the labels are the subject of C52 and C44. Infinite elements are excluded."
 ],
 "C132": [
  "proved",
  "On the arrays of float larrys with exact real arithmetic; the labels are the subject of other properties. C132_negative is the witness for the last sentence."
 ],
 "C133": [
  "proved",
  "Links the rational model of larrys (Verif/Stats.lean, Verif/Kernel.lean) to the real one of arrays (Verif/RealScore.lean, Verif/RealLog.lean), so that C131 and C132 speak about the methods. The square root is a parameter of the rational model; std and zscore are compared where it is exact."
 ],
 "C134": [
  "proved",
  "Numbers are rationals, as everywhere in the model of larrys. bn.nanmean, bn.nanmedian and bn.nanvar are modelled, not assumed to satisfy this."
 ],
 "C135": [
  "proved",
  "Numbers are rationals, as everywhere in the model of larrys. C135_missing shows that the condition on missing elements is needed."
 ],
 "C14": [
  "proved",
  "Inverse and composition; equality of labels, dtype, shape and all elements."
 ],
 "C15": [
  "proved",
  "All dtypes, exact cast condition, exception."
 ],
 "C16": [
  "proved",
  "All joins, all dtypes, both cast values; the failing cases are characterised exactly (AxisFails), and which exception comes first (C16_align_first)."
 ],
 "C17": [
  "proved",
  "Dtype of both results; cast=False raises TypeError exactly when a cast would be needed (stated for non-empty axes, where no IndexError can interfere)."
 ],
 "C18": [
  "proved",
  "The statement describes the code as it is: inner/outer read axis[i] where axis[i+1] is meant (la/flarry.py:506-510). C18_align_axis_given is the intended claim where it holds, C18_wrong_axis shows it fails otherwise."
 ],
 "C19": [
  "proved",
  "Membership, order, order-independence of the arguments, exceptions."
 ],
 "C20": [
  "proved",
  "All dtypes and both update values; every failing case and its exception."
 ],
 "C21": [
  "proved",
  "Float larrys; labels and present values agree and are exactly the union."
 ],
 "C22": [
  "proved",
  "Every elementwise function, all joins except skip (with skip the code puts None into the label list of the result)."
 ],
 "C23": [
  "proved",
  "Reference model of larrys (buffers, views, label lists, objects) with a refinement proof to the value model. The expectation that merge and binaryop never modify their arguments is false of the code; the exact condition is proved and C23_merge_writes, C23_binaryop_writes, C23_shared_labels are concrete witnesses."
 ],
 "C24": [
  "proved",
  "All axes selections, reverse flag; idempotence needs the label order to be total on each axis (LinearOrder)."
 ],
 "C25": [
  "proved",
  "All axis selections including negative and duplicate handling; involution proved as equality of larrys."
 ],
 "C26": [
  "proved",
  "All lags incl. |k|>=n and negative axis."
 ],
 "C27": [
  "proved",
  "T and swapaxes for all ndim and all axes incl. negative; bad axis raises."
 ],
 "C28": [
  "proved",
  "Both orders; position of each tuple is fixed by the row/column-major enumeration; other orders raise ValueError."
 ],
 "C29": [
  "proved",
  "General fromlist/fromtuples result (sorted labels, last duplicate wins, NaN for unlisted) plus the four round trips; int/bool values come back as floats."
 ],
 "C30": [
  "proved",
  "Every 3d larry with nonempty first axis; other ranks and an empty first axis raise ValueError."
 ],
 "C31": [
  "proved",
  "Includes expand_dims position rule for negative axes and pull errors."
 ],
 "C32": [
  "proved",
  "Including the unsupported 0d result when all axes have length 1."
 ],
 "C33": [
  "proved",
  "getitem on tuple and single indices; success condition, kind of result, and errors; C33_scrambled shows the excluded index form mislabels values. Lists of booleans inside tuples and float indices not modelled."
 ],
 "C34": [
  "proved",
  "Includes rejected duplicates/out of range."
 ],
 "C35": [
  "proved",
  "tuple and single-entry forms, exact success condition, empty larrys"
 ],
 "C36": [
  "proved",
  "tuple and single-entry forms, scalar and larry values, exact success condition"
 ],
 "C37": [
  "proved",
  "larry mask, scalar and larry values; casts on assignment are a parameter"
 ],
 "C38": [
  "proved",
  "keep_label and keep_x."
 ],
 "C39": [
  "proved",
  "value, labels, idempotence, TypeError for str/object unless every axis is left alone."
 ],
 "C40": [
  "proved",
  "fraction is an exact rational."
 ],
 "C41": [
  "proved",
  "exact and nearest modes."
 ],
 "C42": [
  "proved",
  "for every reduction function and result dtype; the reduction itself (Bottleneck or numpy) is a parameter."
 ],
 "C43": [
  "proved",
  "Along an axis or over all elements, for lines without infinities: a NaN stays NaN and every other position holds the exact sum or product of the non-NaN values so far."
 ],
 "C44": [
  "proved",
  "float larrys; exact rationals with NaN and infinities."
 ],
 "C45": [
  "proved",
  "Values are moved into [lo, hi], NaN kept, infinities treated as numbers; the result is written in the dtype of the larry (truncated toward zero for ints, truth value for bools), as numpy's forced cast does; idempotent. Not modelled: int larrys clipped with NaN bounds, integer overflow."
 ],
 "C46": [
  "proved",
  "A non-finite value is replaced by the last finite value at most `window` positions back; everything else stays. Infinities count as missing."
 ],
 "C47": [
  "proved",
  "Lines without infinities; weights of a decay are any positive numbers. Rational arithmetic."
 ],
 "C48": [
  "proved",
  "Exact formula for the rank of every value, plus range and order. The gaussian norm is proved to hand ndtri a probability in (0,1); ndtri itself is a parameter. bn.nanrankdata is given by its documented result."
 ],
 "C49": [
  "proved",
  "argsort is a parameter that must return a sorting permutation (an instance is given). q = 1 gives 0 for every value that is not NaN, infinities included."
 ],
 "C50": [
  "proved",
  "func is any function of a line; memory is a buffer with offset and (any, also negative) strides. Both methods, ndim 1-3 for strides, any ndim for loop; the view's addresses all belong to the input array."
 ],
 "C51": [
  "proved",
  "skip >= 0; lines without infinities; with norm=True the sum is scaled to a full window."
 ],
 "C52": [
  "proved",
  "Lines without infinities. std and median are parameters: std of the demeaned line is a number s != 0; unit variance under s*s = mean square of the demeaned line."
 ],
 "C53": [
  "proved",
  "Each line along the axis separately; the order of the groups is any permutation; median is a parameter. None and NaN name no group. Lines without infinities for the mean."
 ],
 "C54": [
  "proved",
  "shuffle is any function returning a permutation; int(1.0*n/kfold) taken as the integer quotient (exact below 2**53)"
 ],
 "C55": [
  "proved",
  "randint is any stream of draws; the order of list(set) is a parameter"
 ],
 "C56": [
  "proved",
  "C56_history is the dictionary refinement over all call sequences; C56_nested_overwrite, C56_failed_set and C56_brick are the departures. h5py is modelled as a tree of groups and datasets."
 ],
 "C57": [
  "proved",
  "All label lists, over Python int/float/str/bool/date/time/datetime values; calendar arithmetic (toordinal/fromordinal) proved inverse."
 ],
 "C58": [
  "proved",
  "File system as a map from names to archives with atomic rename/remove; content of an open file arbitrary until closed."
 ],
 "C59": [
  "proved",
  "C59_clear with the exact condition, C59_nested the failure."
 ],
 "C60": [
  "proved",
  "h5py's selection is modelled (orthogonal, lists must increase as written, read in file order; zero-length selections allowed or not by a parameter). C60_negative and C60_stale are the counterexamples outside the hypotheses."
 ],
 "C61": [
  "proved",
  "method, function and nans."
 ],
 "C62": [
  "proved",
  "for bool, int and float larrys; the keywords are labels"
 ],
 "C63": [
  "proved",
  "argsort is a parameter with its specification"
 ],
 "C64": [
  "proved",
  "C64_history for all histories of 46 kinds of calls; C64_step for one call; C64_unfair shows the side conditions are needed (other than for binaryop with a skipped axis). Larrys are values in this model; aliasing is C23."
 ],
 "C65": [
  "proved",
  "index lists that partition the axis; bootstrap pairs shown to raise"
 ],
 "C66": [
  "proved",
  "C66_step for one call, C66_program for programs, C66_scalars for scalar results, C66_canonical for sortaxis, C66_reorders for ways to reorder. Exact numbers: in floating point a sum in another order may differ in the last bits. Positional calls (indexing, lix, take), cumulative and moving functions, lag, push, quantile, sortby and masks are not in this class."
 ],
 "C67": [
  "proved",
  "Exact rationals in place of floats; infinities are excluded from the value theorem; the bool case is C67_bool."
 ],
 "C68": [
  "proved",
  "Exact reals in place of floats; infinities excluded. The labels of larry.geometric_mean are those of any reduction (C42)."
 ],
 "C69": [
  "proved",
  "Exact reals in place of floats; infinities, bool arrays, 0d arrays and broadcasting of different shapes excluded."
 ],
 "C70": [
  "proved",
  "The draws of the random number generator are an argument. np.random.shuffle slices its elements if the first one has a length, so mixed str/number labels raise TypeError; labels of one kind are modelled."
 ],
 "C71": [
  "proved",
  "Labels of one ordered type; Python 2 comparisons between types are not modelled."
 ],
 "C72": [
  "proved",
  "log, exp and sqrt are an arbitrary function of the float. Exponents are whole and >= 0. Ints and floats are unbounded and exact, so overflow and rounding are not modelled. What conversion of NaN and infinities to int gives is a parameter. String and object larrys are not modelled here."
 ],
 "C73": [
  "proved",
  "24 of the 46 kinds of call in the history model take part. A call that raises leaves both runs unchanged. Functions passed in (ufuncs, reductions) must respect R; addition, subtraction, merge and nansum are shown to respect units. Floats are exact rationals with nan and infinities."
 ],
 "C74": [
  "proved",
  "Ints and floats are exact and unbounded, so overflow, rounding and signed zeros are not modelled. Strings and objects are not modelled here. Arrays that broadcast to a larger shape are C12."
 ],
 "C75": [
  "proved",
  "Ints and floats are exact, so rounding and overflow (which make float sums depend on order) are not modelled."
 ],
 "C76": [
  "proved",
  "Python's csv module (default dialect) is modelled as a quoting writer and the reader's state machine. The conversions of a label or value to text and of text to float are parameters; the theorem assumes that float undoes the text of each value of the larry."
 ],
 "C77": [
  "proved",
  "Shapes have no negative entries; start and step of lrange are ints (as documented); the argument order is left out."
 ],
 "C78": [
  "proved",
  "Calls that raise leave the variables as they were, as in C56. Labels of one program come from one linear order."
 ],
 "C79": [
  "proved",
  "Python's str() on labels and elements is a parameter."
 ],
 "C80": [
  "proved",
  "Calls that return views (squeeze, pull, indexing with integers and slices) and binaryop with fills are outside this statement; C23 says what they do."
 ],
 "C81": [
  "proved",
  "The text of the answer is arbitrary; float, int and date reading are parameters. The address asked for and IOError are not modelled."
 ],
 "C82": [
  "proved",
  "f is a function on rationals; floats are exact rationals in the model, so a change of units that rounds two values together is outside it. quantile assumes an argsort whose result is fixed by comparisons."
 ],
 "C83": [
  "proved",
  "bn.nanmedian and bn.nanstd are parameters, assumed to move and scale with the values; bn.nanmean is proved to. Floats are exact rationals, NaN and infinities."
 ],
 "C84": [
  "proved",
  "bn.nansum, bn.nanmax, bn.nanmin, np.any and np.all are written out on exact numbers (Bottleneck 0.7: NaN for a line of NaNs). Larrys without elements are left to C42. The condition on sum is shown to be needed."
 ],
 "C85": [
  "proved",
  "The sentence in the documentation is false as it stands; the theorem gives the exact condition for each line, and C85_doc_claim two lines for which it fails."
 ],
 "C86": [
  "proved",
  "The median and the standard deviation are parameters: a centre that moves with the values, and a spread in the units of the values that does not depend on their origin. clip, vacuum and sortaxis are treated in C45, C39 and C24."
 ],
 "C87": [
  "proved",
  "np.may_share_memory and the tolerance of assert_almost_equal are parameters. The scalar branches of assert_larry_equal, its fall-back on TypeError, printfail and the texts of the messages are not modelled. The two gaps of assert_iscopy are hypotheses (Ordinary), with a witness for the shared lists."
 ],
 "C88": [
  "proved",
  "str of a label, the decimal of an axis number and repr of the array are parameters (the decimal without line breaks)."
 ],
 "C89": [
  "proved",
  "str of a dtype and of a shape are parameters; NameError (reduce under Python 3, no rows) is written as RuntimeError. The archive is that of C56."
 ],
 "C90": [
  "proved",
  "Python 2 (reduce). The quotient in wrap_always is exact. White space is that of byte strings."
 ],
 "C91": [
  "proved",
  "Exact arithmetic in place of floats and no overflow of ints. Bottleneck's functions are written out as lists functions from their documentation and source; the square root in std is a parameter. any and all of objects are not modelled."
 ],
 "C92": [
  "proved",
  "For reductions both larrys must have cells (an empty part gives defaults, C91_empty). Functions left open by the model (sort, argsort, std, median of a line) are the same for part and whole. move_func for lines at least as long as the window. prod for floats."
 ],
 "C93": [
  "proved",
  "Scalars as values, after the cast to the dtype of the dataset. h5py 2.x selections are part of the model. Witnesses: C93_larry_aligned (assigning an aligned larry is a TypeError), C93_stale (an old lara writes to the wrong labels after the key is overwritten)."
 ],
 "C94": [
  "proved",
  "Copying with [:] needs an h5py that allows empty selections, or larrys with cells. Witnesses: C94_removed (KeyError for a key removed ahead), C94_stale (items() has outdated laras), C94_slash (overwriting a key with a slash in a loop is a RuntimeError)."
 ],
 "C95": [
  "proved",
  "For all expression trees over bool, int and float larrys with the same number of axes. Ints and floats are exact and unbounded; strings and objects are not covered; the value assigned in y[condition] = v is taken as already cast to the dtype of y."
 ],
 "C96": [
  "proved",
  "The fill value is assumed to be 0 (1) after numpy's conversion to float. Witness C96_infinite: with infinite numbers the order matters. Results with join='skip' (a label list that is None) are outside."
 ],
 "C97": [
  "proved",
  "Functions are given by what they do to one line, as in C42 and C91; the larry has elements where the ordinary method is compared. C97_forward excludes infinite numbers (cumulative sums). The methods move_sum, move_mean, move_std, move_min and move_max call Bottleneck's compiled loops, which are not modelled."
 ],
 "C98": [
  "proved",
  "Each larry occurs as an object of its own, since merge may write into the larry it is called on (C23). A value is one that merge regards as present: infinite numbers count as missing, as in C20, so that the last three theorems compare larrys without infinite numbers (C98_pieces: the finite values)."
 ],
 "C99": [
  "proved",
  "The claim in general terms (all of them independent of their arguments) is false of the code for lix with lists and for label=: C99_lix and C99_create state exactly what is shared, C99_lix_list_kept and C99_create_shared show the consequences (findings 41, 42). lix of a single entry that is not a tuple is y[...] and shares as in C23; its values are covered by C99_values. sortby is stated for larrys with at most two label lists (it raises for other dimensions)."
 ]
}