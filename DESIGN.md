# Formal model of chrisspalm/la in Lean 4 — design

`lean/` is a Lake project (Lean 4.33.0, Mathlib).  `properties.jsonl` lists the properties,
`MANIFEST.json` names the theorems that prove each of them, `seeded/LOG.jsonl` records the wrong
programs the theorems were tested against, and `tools/` holds two scripts (`mkmanifest.py` writes the
manifest, `seed.py` runs a round of wrong programs in a scratch copy).  The sections below give the
trusted base, the model, one entry per property, the findings about the code, and what is left out.

## 1. Trusted base

* **Lean's kernel** (4.33.0) and the compiled Mathlib it is given.
* **Axioms.**  Every theorem in the manifest depends on a subset of `propext`, `Classical.choice` and
  `Quot.sound`, the three standard axioms.  The project declares no axiom and uses no `sorry`, `admit`,
  `native_decide` or `bv_decide`.  Concrete examples are closed with `decide`, `decide +kernel`, `rfl` or
  `norm_num`; `decide +kernel` evaluates in the kernel and adds no axiom.
* **The reading of the Python source.**  Every definition that models code cites the file and lines in
  `/repo` it was read from.  That the definition says what those lines do is by inspection.  As a guard
  against slips, `Verif/Checks` evaluates the model on some 530 inputs taken from the project's own
  docstrings and unit tests and compares with the values written there; these are checks of the reading,
  not proofs of properties, and no property rests on them.
* **The models of the libraries.**  numpy, Bottleneck, h5py, the file system and the Python built-ins
  are modelled by hand (`Py.lean`, `Np.lean`, `Reduce.lean`, `Move.lean`, `IO.lean`, `Repack.lean`,
  `Lara.lean`, `Calendar.lean`, `Heap.lean`).  The versions meant are those of the commit's time:
  Python 2.7/3.x, NumPy 1.6/1.7, Bottleneck 0.7, h5py 2.x.
* **The specifications.**  `Spec.lean`, `SpecNum.lean` and the definitions at the head of each file in
  `Props/` are what a reader has to agree with; the remaining files are proofs the kernel checks.

## 2. The model

### Values, arrays, larrys

* `Val` is a numpy scalar: bool, int (ℤ), float, string, or an opaque object/date.  `Flt` is an exact
  rational, NaN, +inf or −inf.  Rounding, overflow, signed zeros and NaN payloads are not modelled.
* `NDArray α` is a shape and a total function from multi-indices (`List Nat`) to values.  Only positions
  inside the shape (`InB`) mean anything: equality of arrays (`NDArray.Same`) looks only there.  Every
  primitive that numpy checks for bounds is checked in the model.
* Exceptions are values: `Res α = Except PyErr α`, with the exception class as the error.
* `Larry L` is an array of `Val`, a dtype and a list of label lists, over a label type `L`.  Most theorems
  hold for every linearly ordered `L`, some for every type with decidable equality.  Labels that compare
  inconsistently (NaN labels, mixed types under Python 3) are therefore outside the model.
* Mutation: most methods are modelled as functions from larrys to larrys.  Which objects, buffers and
  label lists are shared or written is the subject of a second model (`Heap.lean`), whose operations are
  proved to compute the same values as the first (`C23_values`).

### Specification vocabulary

A larry stands for a partial map from label tuples to values.  `At label idx names` says that position
`idx` carries the labels `names`; `Holds`, `Named`, `NamedExcept` are the variants for whole axes.  None of
them uses the model's lookup functions.  `get` is proved to compute this map (C07), and properties about
labels are stated through labels, shape, dtype and this map.  `Larry.Valid` is the invariant the
constructor checks: one label list per axis, of the axis's length, without duplicates.  `Larry.Typed` says
that every element belongs to the dtype.

### Parameters instead of models

Where la calls a numeric library whose arithmetic is not the subject, the function is a parameter of the
model and theorems quantify over it, sometimes under its documented contract:

| parameter | contract used |
|---|---|
| elementwise operators and functions | none |
| Bottleneck/numpy reductions (`Red`) | none, or a stated result on lines of numbers |
| casts on assignment (`conv`) | none |
| `argsort` | returns a sorting permutation |
| `bn.nanstd`, `bn.nanmedian` | stated in the theorem (for example `s * s` = mean square); `nanstd` is computed in C131 |
| `ndtri` | none; it is proved to receive a probability strictly between 0 and 1 |
| `np.random.shuffle`, `randint` | returns a permutation; any stream of draws |
| iteration order of `set` and `dict` | any permutation |

### Files

| Lean module | code modelled |
|---|---|
| `Flabel` | la/flabel.py, the loops of la/src/cflabel.pyx |
| `Np`, `Py`, `Flt` | numpy indexing, take, putmask, transpose, squeeze …; Python lists, slices, errors; floats |
| `Larry` | constructor, get/set, labelindex, operators, comparisons, morph, morph_like (la/deflarry.py) |
| `Flarry` | align_raw, align, align_axis, union, intersection, isaligned, merge, binaryop |
| `Methods` | sortaxis, flipaxis, lag, T, swapaxes, squeeze, insertaxis, pull, take, keep_label, maplabel |
| `Flatten` | flatten, unflatten, totuples/fromtuples, tolist/fromlist, todict/fromdict, panel |
| `Reduce` | `__reduce`, sum … all, prod, keep_x, vacuum, cut_missing, ismissing |
| `Kernel` | cumsum, cumprod, clip, push, lastrank, ranking, quantile, demean, demedian, zscore, movingsum |
| `NegSkip` | movingsum for any skip, with numpy's checks of shapes |
| `Group`, `Move` | la/farray/group.py, la/farray/move.py (with memory and strides) |
| `Index`, `Setitem`, `Lix` | `__getitem__`, `__setitem__`, `lix` |
| `Objects` | `isint`, `isfloat`, `isscalar`, `isstring`; which index an object is taken for |
| `Operand` | the operators by the type of the other operand; reflected methods |
| `Protocol` | larrys in `for`, `in`, conditions, chained comparisons, `max`, `min`, `list.index`: Python's rules for an object with `__getitem__` and comparisons only |
| `ObjectArith` | the arithmetic operators on larrys of dtype object, for any behaviour of Python's operators on the objects |
| `TestingAny` | `assert_larry_equal` of any two objects; its message |
| `Store` | assignment of values of another type than the dtype of the larry |
| `Resample`, `Stack` | la/util/resample.py, `stack`, `sortby` |
| `History` | a program of method calls |
| `IO`, `Calendar`, `Repack`, `Lara` | la/io.py: archives, dates, repack, lazy larrys |
| `Spec`, `SpecNum` | nothing: the vocabulary the theorems are stated with |
| `ReduceMethods`, `Stats` | sum, max, min, any, all; mean, median, var, std spelled out on exact numbers |
| `RealStats` | geometric_mean and correlation (la/farray/misc.py) over the real numbers |
| `RealScore` | std, demean and zscore of arrays over the real numbers, with the true square root |
| `RealLog` | log, exp, sqrt, sum, prod, mean, cumsum and cumprod of arrays over the real numbers |
| `Moving`, `MoveBn` | move_median, move_ranking, move_func; move_sum, move_mean, move_std, move_min, move_max |
| `Cov`, `Unique`, `Queries` | covMissing and cov; unique; maxlabel, minlabel |
| `Elementwise`, `Arith`, `FlarryArith`, `Formula` | elementwise methods; arithmetic operators on numbers; la.add … la.divide; logical and comparison operators |
| `Create`, `Shuffle`, `MapTry` | lrange, empty, ones, zeros, rand, randn; shuffle, shufflelabel; maplabel with a function that may raise |
| `Csv`, `Tofile`, `Print`, `PrettyTable` | tocsv, fromcsv; tofile; `__repr__`; la/external/prettytable.py |
| `IOLoop`, `Files`, `LaraSet` | loops over archives; opening and closing of files; assignment through a lara |
| `Testing` | la/util/testing.py |
| `Yahoo` | la/data/yahoo.py and its parser in la/external/matplotlib.py |
| `HeapMore` | references for lix, flatten, panel, cov, align_axis, stack, sortby and the functions that create larrys |
| `Heap` | objects, buffers and label lists: copy, copyx, copylabel, methods that return views, in-place methods, merge, binaryop |
| `Checks/*` | nothing: values from the docstrings and tests, compared with the model |

The `…Facts`, `Calculus`, `Ravel`, `BinopFacts`, `MorphLike`, `HeapRun`, `HeapWrite`, `HeapView`, `HeapOwn`, `Before…`,
`Lookback…`, `Param…`, `Rename…`, `Reorder…` modules hold lemmas; `Examples` holds larrys for the examples;
`Props/` holds the theorems about the properties.

## 3. Properties

For each property: what is modelled, the theorems, and how they are proved.  Beside each theorem in
`Props/` an `example` shows a concrete larry that meets its hypotheses.

### C01 listmap returns indices that reproduce the target list

*Model:* `listmap`, `listmap` with ignore_unmappable (la/flabel.py:10-84)  
*Theorems (proved):* `C01_listmap`, `C01_listmap_ignore` in `Props/Labels.lean`  
*Proof:* List induction; dictionary lookup characterised by `idxOf?` of the last occurrence.  
*Scope:* listmap, both values of ignore_unmappable, for lists over any type with decidable equality.

### C02 listmap_fill separates mapped from unmappable positions exactly

*Model:* `listmap_fill` (la/flabel.py:87-160)  
*Theorems (proved):* `C02_listmap_fill` in `Props/Labels.lean`  
*Proof:* List induction with the fill count as invariant.  
*Scope:* listmap_fill, any integer fill.

### C03 The C (Cython) and pure Python label mappers are interchangeable

*Model:* both loops, la/flabel.py and la/src/cflabel.pyx  
*Theorems (proved):* `C03_cython_eq_python` in `Props/Labels.lean`  
*Proof:* Loop invariant on the partial result; equality of results and exceptions.  
*Scope:* Cython and Python loops return equal results and exceptions; C int overflow (lists longer than 2^31) is not modelled.

### C04 flattenlabel enumerates label tuples in array order

*Model:* `flattenlabel` (la/flabel.py:162-184)  
*Theorems (proved):* `C04_flattenlabel_C`, `C04_flattenlabel_F`, `C04_flattenlabel_bad`, `C04_positions_bijective` in `Props/Labels.lean`  
*Proof:* Induction on the label lists against the row/column-major enumeration of `Spec`.  
*Scope:* flattenlabel in both orders, exact positions, and the ValueError.

### C05 list2index factors a list through its sorted set of values

*Model:* `list2index` (la/flabel.py:186-)  
*Theorems (proved):* `C05_list2index` in `Props/Labels.lean`  
*Proof:* Sorted duplicate-free list of the values, by `mergeSort` facts.  
*Scope:* list2index over any linear order.

### C06 The larry constructor accepts exactly the well-formed label/data pairs

*Model:* `larry.__init__` (la/deflarry.py:21-140)  
*Theorems (proved):* `C06_constructor`, `C06_default_labels` in `Props/Core.lean`  
*Proof:* Case analysis on the checks; iff with `ValidLabels`.  
*Scope:* Constructor with a list of label lists and with label=None; label arguments of other sequence types are not representable in the model.

### C07 get by label reads the unique cell carrying those labels

*Model:* `larry.get` (2174-2209)  
*Theorems (proved):* `C07_get` in `Props/Core.lean`  
*Proof:* Uniqueness of `At` under no duplicates.  
*Scope:* get on every valid larry, result and exception.

### C08 set by label is read back and touches no other cell

*Model:* `larry.set` (2127-2172)  
*Theorems (proved):* `C08_set`, `C08_set_history` in `Props/Core.lean`  
*Proof:* Pointwise; histories by induction over the list of calls.  
*Scope:* set and arbitrary sequences of set calls; the cast of the new value to the array's dtype is a parameter.

### C09 Binary operators join by label (inner join)

*Model:* `__add__` … `__or__`, `__align` (646-1067)  
*Theorems (proved):* `C09_binop`, `C09_binop_ndim`, `C09_binop_dtype_error` in `Props/Core.lean`  
*Proof:* The morph calculus on every axis with the inner join of the label lists.  
*Scope:* All elementwise operators (operator and dtype rule are parameters).

### C10 Binary operators are symmetric in the labels

*Model:* same  
*Theorems (proved):* `C10_binop_swap`, `C10_labels_unique`, `C10_set_order_irrelevant` in `Props/Core.lean`  
*Proof:* Symmetry of the join; permutation-invariance under set order.  
*Scope:* Operand order and set iteration order.

### C11 Comparisons align like arithmetic

*Model:* `__eq__` … `__compare` (1661-1727)  
*Theorems (proved):* `C11_compare`, `C11_compare_ndim` in `Props/Core.lean`  
*Proof:* As C09.  
*Scope:* Elementwise comparisons between larrys.

### C12 Broadcasting with an ndarray keeps a valid larry only when the shape is unchanged

*Model:* the same methods with ndarrays and scalars  
*Theorems (proved):* `C12_broadcast`, `C12_scalar`, `C12_broadcast_breaks` in `Props/Core.lean`  
*Proof:* Broadcast rule; a witness for the larger shape.  
*Scope:* Includes a proof that a larger broadcast shape yields an invalid larry (the code does not check).

### C13 morph reindexes one axis by label

*Model:* `morph` (3289-3361)  
*Theorems (proved):* `C13_morph`, `C13_morph_error`, `C13_morph_negative_axis` in `Props/Core.lean`  
*Proof:* `listmap_fill`, take and fill composed; dtype by cases.  
*Scope:* Includes the exact condition for the cast to float, the exceptions, negative axes.

### C14 morph composes and permutation morphs invert

*Model:* `morph`  
*Theorems (proved):* `C14_morph_inverse`, `C14_morph_compose` in `Props/Core.lean`  
*Proof:* From C13 by uniqueness of labelled values.  
*Scope:* Inverse and composition; equality of labels, dtype, shape and all elements.

### C15 morph_like aligns every axis with the target

*Model:* `morph_like` (3363-3420)  
*Theorems (proved):* `C15_morph_like`, `C15_morph_like_ndim` in `Props/Core.lean`  
*Proof:* Induction over axes with an invariant on the axes done.  
*Scope:* All dtypes, exact cast condition, exception.

### C16 align implements inner/outer/left/right/skip joins per axis

*Model:* `align_raw`, `align` (la/flarry.py:18-377)  
*Theorems (proved):* `C16_align`, `C16_align_fails`, `C16_align_first`, `C16_align_shape` in `Props/Align.lean`  
*Proof:* Invariant of the loop over axes; each axis by its join; failing axes characterised by `AxisFails`. The first failing axis decides the exception (`FirstRaises`).  
*Scope:* All joins, all dtypes, both cast values; the failing cases are characterised exactly (AxisFails), and which exception comes first (C16_align_first).

### C17 align casts only when it must, and cast=False refuses

*Model:* same  
*Theorems (proved):* `C17_align_dtype`, `C17_cast_false`, `C17_inner` in `Props/Align.lean`  
*Proof:* Dtype tracked through the loop.  
*Scope:* Dtype of both results; cast=False raises TypeError exactly when a cast would be needed (stated for non-empty axes, where no IndexError can interfere).

### C18 align_axis aligns many larrys along per-larry axes

*Model:* `align_axis` (379-520)  
*Theorems (proved):* `C18_align_axis`, `C18_align_axis_given`, `C18_errors`, `C18_wrong_axis` in `Props/Align.lean`  
*Proof:* Fold invariant; the axis actually read is a separate definition `axesRead`.  
*Scope:* The statement describes the code as it is: inner/outer read axis[i] where axis[i+1] is meant (la/flarry.py:506-510). C18_align_axis_given is the intended claim where it holds, C18_wrong_axis shows it fails otherwise.

### C19 union and intersection of labels are sorted, exact and order-independent

*Model:* `union`, `intersection` (570-653)  
*Theorems (proved):* `C19_union`, `C19_intersection`, `C19_error`, `C19_order_independent` in `Props/Align.lean`  
*Proof:* Set facts and sortedness.  
*Scope:* Membership, order, order-independence of the arguments, exceptions.

### C20 merge combines two larrys without losing values

*Model:* `merge` (la/deflarry.py:3422-3503)  
*Theorems (proved):* `C20_merge`, `C20_merge_errors` in `Props/Merge.lean`  
*Proof:* Morph to the union, then pointwise putmask.  
*Scope:* All dtypes and both update values; every failing case and its exception.

### C21 merge without overlap is symmetric

*Model:* `merge`  
*Theorems (proved):* `C21_merge_symmetric` in `Props/Merge.lean`  
*Proof:* From C20.  
*Scope:* Float larrys; labels and present values agree and are exactly the union.

### C22 binaryop fills missing values as documented

*Model:* `binaryop` (la/flarry.py:655-788)  
*Theorems (proved):* `C22_binaryop`, `C22_binaryop_align_error` in `Props/Align.lean`  
*Proof:* C16 followed by pointwise fills.  
*Scope:* Every elementwise function, all joins except skip (with skip the code puts None into the label list of the result).

### C23 Which operations alias or mutate their inputs

*Model:* `Heap.lean`: `HM` monad over cells (buffers, lists, objects), methods as programs  
*Theorems (proved):* `C23_copy`, `C23_independent`, `C23_values`, `C23_mild`, `C23_evolves`, `C23_squeeze`, `C23_pull`, `C23_getitem`, `C23_shared_labels`, `C23_getitem_array`, `C23_inplace`, `C23_merge_self`, `C23_merge_writes`, `C23_binaryop`, `C23_binaryop_fills`, `C23_binaryop_writes` in `Props/Heap.lean`, `Props/HeapValues.lean`, `Props/HeapViews.lean`  
*Proof:* Locality logic (a program touches only what it can reach), separation of reachable sets, refinement to the value model, induction over sequences of actions.  
*Scope:* Reference model of larrys (buffers, views, label lists, objects) with a refinement proof to the value model. The expectation that merge and binaryop never modify their arguments is false of the code; the exact condition is proved and C23_merge_writes, C23_binaryop_writes, C23_shared_labels are concrete witnesses.

### C24 sortaxis sorts labels and keeps every labelled value

*Model:* `sortaxis` (3613-3700)  
*Theorems (proved):* `C24_sortaxis`, `C24_sortaxis_idempotent`, `C24_sortaxis_axis` in `Props/Structure.lean`  
*Proof:* `Reindexed` calculus; sort facts.  
*Scope:* All axes selections, reverse flag; idempotence needs the label order to be total on each axis (LinearOrder).

### C25 flipaxis reverses order only

*Model:* `flipaxis` (3702-3778)  
*Theorems (proved):* `C25_flipaxis`, `C25_flipaxis_involution`, `C25_flipaxis_axis` in `Props/Structure.lean`  
*Proof:* `Reindexed` calculus.  
*Scope:* All axis selections including negative and duplicate handling; involution proved as equality of larrys.

### C26 lag shifts values relative to labels

*Model:* `lag` (3543-3611)  
*Theorems (proved):* `C26_lag`, `C26_lag_axis` in `Props/Structure.lean`  
*Proof:* Slices as index maps, integer arithmetic.  
*Scope:* All lags incl. |k|>=n and negative axis.

### C27 Transpose and swapaxes permute names, not values

*Model:* `T`, `swapaxes` (4198-4284)  
*Theorems (proved):* `C27_transpose`, `C27_swapaxes`, `C27_swapaxes_axis` in `Props/Structure.lean`  
*Proof:* Permutation of index lists.  
*Scope:* T and swapaxes for all ndim and all axes incl. negative; bad axis raises.

### C28 flatten pairs each value with its label tuple

*Model:* `flatten` (4286-4334)  
*Theorems (proved):* `C28_flatten` in `Props/Flatten.lean`  
*Proof:* Ravel/unravel bijection in both orders.  
*Scope:* Both orders; position of each tuple is fixed by the row/column-major enumeration; other orders raise ValueError.

### C29 flatten/unflatten, totuples/fromtuples, tolist/fromlist, todict/fromdict round trips

*Model:* `unflatten` (4336-4397), totuples … fromdict (4463-4702)  
*Theorems (proved):* `C29_fromlist`, `C29_fromlist_one`, `C29_fromlist_lengths`, `C29_fromtuples`, `C29_fromtuples_empty`, `C29_unflatten`, `C29_unflatten_errors`, `C29_tuples`, `C29_list`, `C29_dict` in `Props/Flatten.lean`  
*Proof:* General `fromlist` theorem (fold of assignments; last wins), round trips from it.  
*Scope:* General fromlist/fromtuples result (sorted labels, last duplicate wins, NaN for unlisted) plus the four round trips; int/bool values come back as floats.

### C30 panel reshapes 3d to 2d keeping labels attached

*Model:* `panel` (la/flarry.py:1407-1469)  
*Theorems (proved):* `C30_panel`, `C30_panel_errors` in `Props/Flatten.lean`  
*Proof:* Ravel arithmetic.  
*Scope:* Every 3d larry with nonempty first axis; other ranks and an empty first axis raise ValueError.

### C31 insertaxis and pull are inverse

*Model:* `insertaxis` (4399-4461), `pull` (2306-2367)  
*Theorems (proved):* `C31_insertaxis`, `C31_insertaxis_far`, `C31_pull`, `C31_pull_errors`, `C31_inverse` in `Props/Axes.lean`  
*Proof:* Index insertion and removal.  
*Scope:* Includes expand_dims position rule for negative axes and pull errors.

### C32 squeeze removes exactly the length-1 axes

*Model:* `squeeze` (3505-3541)  
*Theorems (proved):* `C32_squeeze` in `Props/Axes.lean`  
*Proof:* Induction on the shape.  
*Scope:* Including the unsupported 0d result when all axes have length 1.

### C33 Integer, slice, list, bool and tuple indexing keeps labels attached to values

*Model:* `__getitem__` (1729-1887), numpy indexing rules in `Index`  
*Theorems (proved):* `C33_getitem`, `C33_succeeds`, `C33_kind`, `C33_errors`, `C33_scrambled` in `Props/Index.lean`  
*Proof:* Each entry as an index map; position of the advanced axes; orthogonality of one list.  
*Scope:* getitem on tuple and single indices; success condition, kind of result, and errors; C33_scrambled shows the excluded index form mislabels values. Lists of booleans inside tuples and float indices not modelled.

### C34 take selects positions along one axis and rejects duplicates

*Model:* `take` (1889-1960)  
*Theorems (proved):* `C34_take`, `C34_take_errors`, `C34_take_getitem`, `C34_take_iff` in `Props/Axes.lean`, `Props/TakeIndex.lean`  
*Proof:* `Reindexed` calculus. Indexing with the list gives the same cells by C33 and C100.  
*Scope:* Includes rejected duplicates/out of range.

### C35 lix label indexing is rectangular indexing by label

*Model:* `Lix.__getitem__`, `slicemaker`, `labels2indices` (5011-5172)  
*Theorems (proved):* `C35_tuple`, `C35_tuple_succeeds`, `C35_one`, `C35_empty` in `Props/Lix.lean`  
*Proof:* Loop invariant over axes; selection of labels per axis.  
*Scope:* tuple and single-entry forms, exact success condition, empty larrys

### C36 lix assignment writes exactly the selected rectangle

*Model:* `Lix.__setitem__` (5076-5138)  
*Theorems (proved):* `C36_scalar`, `C36_larry`, `C36_one_scalar`, `C36_one_larry`, `C36_one_larry_succeeds`, `C36_empty` in `Props/Lix.lean`  
*Proof:* Rectangular assignment pointwise.  
*Scope:* tuple and single-entry forms, scalar and larry values, exact success condition

### C37 Item assignment with larry values is label safe

*Model:* `__setitem__` (2082-2125)  
*Theorems (proved):* `C37_mask_unaligned`, `C37_mask`, `C37_mask_int`, `C37_scalar`, `C37_larry`, `C37_larry_aligned`, `C37_larry_unaligned` in `Props/Setitem.lean`  
*Proof:* Pointwise assignment; alignment check.  
*Scope:* larry mask, scalar and larry values; casts on assignment are a parameter

### C38 keep_label and keep_x filter exactly

*Model:* `keep_label`, `keep_x` (2396-2535)  
*Theorems (proved):* `C38_keep_label`, `C38_keep_label_errors`, `C38_keep_x`, `C38_keep_x_errors`, `C38_keep_x_bool` in `Props/Axes.lean`, `Props/Missing.lean`, `Props/Store.lean`  
*Proof:* Filter facts; vacuum from C39.  
*Scope:* keep_label and keep_x.

### C39 vacuum removes exactly the all-missing slices

*Model:* `vacuum` (4000-4060)  
*Theorems (proved):* `C39_vacuum`, `C39_vacuum_idempotent`, `C39_vacuum_errors`, `C39_vacuum_nothing` in `Props/Missing.lean`  
*Proof:* Loop over axes, invariant: kept positions are those with a present value.  
*Scope:* value, labels, idempotence, TypeError for str/object unless every axis is left alone.

### C40 cut_missing drops slices by missing fraction

*Model:* `cut_missing` (3931-3989)  
*Theorems (proved):* `C40_cut_missing`, `C40_cut_nothing`, `C40_cut_errors`, `C40_cut_dtype` in `Props/Missing.lean`  
*Proof:* Counting present values on a slice.  
*Scope:* fraction is an exact rational.

### C41 labelindex exact and nearest

*Model:* `labelindex` (2597-2644)  
*Theorems (proved):* `C41_labelindex`, `C41_nearest`, `C41_labelindex_axis` in `Props/Axes.lean`  
*Proof:* `idxOf`, greatest position by induction.  
*Scope:* exact and nearest modes.

### C42 Reductions remove one axis and its labels

*Model:* `__reduce` (1461-1492) and its callers  
*Theorems (proved):* `C42_reduce_axis`, `C42_reduce_1d`, `C42_reduce_all`, `C42_reduce_empty`, `C42_reduce_errors` in `Props/Reduce.lean`  
*Proof:* Lines along an axis; reduction as parameter.  
*Scope:* for every reduction function and result dtype; the reduction itself (Bottleneck or numpy) is a parameter.

### C43 cumsum and cumprod ignore NaN

*Model:* `cumsum`, `cumprod` (293-422)  
*Theorems (proved):* `C43_cumsum`, `C43_cumprod`, `C43_int`, `C43_bool`, `C43_exact`, `C43_errors` in `Props/Numeric.lean`  
*Proof:* Prefix induction over exact rationals.  
*Scope:* Along an axis or over all elements, for lines without infinities: a NaN stays NaN and every other position holds the exact sum or product of the non-NaN values so far.

### C44 prod ignores NaN unless everything is NaN

*Model:* `prod` (1105-1167)  
*Theorems (proved):* `C44_prod_axis`, `C44_prod_1d`, `C44_prod_all`, `C44_finite`, `C44_whole_axis`, `C44_whole_all` in `Props/Reduce.lean`  
*Proof:* Fold facts.  
*Scope:* float larrys; exact rationals with NaN and infinities.

### C45 clip bounds values and keeps the dtype

*Model:* `clip` (424-462) on bool, int and float larrys, with the write-back in the larry's own dtype.  
*Theorems (proved):* `C45_clip`, `C45_range`, `C45_float`, `C45_int`, `C45_idempotent`, `C45_errors`, `C45_int_below` in `Props/Numeric.lean`  
*Proof:* Order facts on `Flt`; truncation toward zero is monotone and fixes whole numbers, so clipping its result again changes nothing; a witness that an int larry can stay below a bound that is not whole.  
*Scope:* Values are moved into [lo, hi], NaN kept, infinities treated as numbers; the result is written in the dtype of the larry (truncated toward zero for ints, truth value for bools), as numpy's forced cast does; idempotent. Not modelled: int larrys clipped with NaN bounds, integer overflow.

### C46 push fills forward within the window only

*Model:* `push` (3991-3998, la/farray/normalize.py:201-223)  
*Theorems (proved):* `C46_push`, `C46_errors` in `Props/Numeric.lean`  
*Proof:* Loop invariant: last finite value and its position.  
*Scope:* A non-finite value is replaced by the last finite value at most `window` positions back; everything else stays. Infinities count as missing.

### C47 lastrank is the normalised rank of the last element, in [-1,1]

*Model:* `lastrank` (la/farray/normalize.py:12-124)  
*Theorems (proved):* `C47_lastrank`, `C47_lastrank_1d`, `C47_range`, `C47_minimum`, `C47_maximum`, `C47_decay` in `Props/Ranking.lean`  
*Proof:* Counting smaller and equal values.  
*Scope:* Lines without infinities; weights of a decay are any positive numbers. Rational arithmetic.

### C48 ranking is NaN-preserving, order-preserving and normalised

*Model:* `ranking` (126-199)  
*Theorems (proved):* `C48_ranking_gaussian`, `C48_ranking_gaussian_all`, `C48_gaussian_order`, `C48_ranking`, `C48_ranking_n1`, `C48_ranking_all`, `C48_ranking_n1_all`, `C48_gaussian`, `C48_order`, `C48_errors` in `Props/RankGauss.lean`, `Props/Ranking.lean`  
*Proof:* Counting; order by monotonicity of counts. The norm 'gaussian' (`GaussLine`) is stated the same way, for any `ndtri` that keeps NaN and increases on (0, 1) (Props/RankGauss.lean).  
*Scope:* Exact formula for the rank of every value, plus range and order. The gaussian norm is proved to hand ndtri a probability in (0,1); ndtri itself is a parameter. bn.nanrankdata is given by its documented result.

### C49 quantile bins are monotone and normalised

*Model:* `quantile`, `_quantileraw1d` (225-293)  
*Theorems (proved):* `C49_quantile`, `C49_quantile_all`, `C49_monotone`, `C49_one`, `C49_errors` in `Props/Normalize.lean`  
*Proof:* Bin edges monotone; inverse permutation of argsort.  
*Scope:* argsort is a parameter that must return a sorting permutation (an instance is given). q = 1 gives 0 for every value that is not NaN, infinities included.

### C50 Moving-window functions: loop and strides methods agree and stay in bounds

*Model:* `move_func`, loop and strides (la/farray/move.py:127-241)  
*Theorems (proved):* `C50_agree`, `C50_move_func`, `C50_in_bounds`, `C50_errors` in `Props/Move.lean`  
*Proof:* Address arithmetic in a buffer with offset and strides.  
*Scope:* func is any function of a line; memory is a buffer with offset and (any, also negative) strides. Both methods, ndim 1-3 for strides, any ndim for loop; the view's addresses all belong to the input array.

### C51 movingsum_forward sums the right window

*Model:* `movingsum`, `movingsum_forward` (243-337)  
*Theorems (proved):* `C51_movingsum_forward`, `C51_errors` in `Props/Normalize.lean`  
*Proof:* Differences of prefix sums.  
*Scope:* skip >= 0; lines without infinities; with norm=True the sum is scaled to a full window.

### C52 demean/demedian/zscore

*Model:* `demean`, `demedian`, `zscore` (la/farray/normalize.py:295-388)  
*Theorems (proved):* `C52_demean`, `C52_demean_all`, `C52_demedian`, `C52_zscore`, `C52_zscore_all`, `C52_errors` in `Props/Normalize.lean`  
*Proof:* Sums over lines of rationals.  
*Scope:* Lines without infinities. std and median are parameters: std of the demeaned line is a number s != 0; unit variance under s*s = mean square of the demeaned line.

### C53 Group operations act within groups only

*Model:* la/farray/group.py, `_group_align`  
*Theorems (proved):* `C53_group_mean`, `C53_group_median`, `C53_group_ranking`, `C53_within`, `C53_errors` in `Props/Group.lean`  
*Proof:* Invariant over the loop of groups; groups partition the positions.  
*Scope:* Each line along the axis separately; the order of the groups is any permutation; median is a parameter. None and NaN name no group. Lines without infinities for the mean.

### C54 cross_validation partitions the data

*Model:* `cross_validation` (la/util/resample.py:6-70)  
*Theorems (proved):* `C54_cross_validation`, `C54_errors` in `Props/Resample.lean`  
*Proof:* Slices of a permutation.  
*Scope:* shuffle is any function returning a permutation; int(1.0*n/kfold) taken as the integer quotient (exact below 2**53)

### C55 bootstrap samples and out-of-bag sets

*Model:* `bootstrap` (72-134)  
*Theorems (proved):* `C55_bootstrap`, `C55_errors` in `Props/Resample.lean`  
*Proof:* Set difference.  
*Scope:* randint is any stream of draws; the order of list(set) is a parameter

### C56 The HDF5 archive behaves like a dictionary

*Model:* `IO` (la/io.py:18-253), save/load/delete  
*Theorems (proved):* `C56_set_get`, `C56_save_load`, `C56_set_ok`, `C56_set_other`, `C56_del`, `C56_del_ok`, `C56_keys`, `C56_history`, `C56_nested_overwrite`, `C56_failed_set`, `C56_brick` in `Props/IO.lean`  
*Proof:* Tree invariant `Archive.WF`; refinement to a dictionary by induction over calls.  
*Scope:* C56_history is the dictionary refinement over all call sequences; C56_nested_overwrite, C56_failed_set and C56_brick are the departures. h5py is modelled as a tree of groups and datasets.

### C57 Archived labels survive the trip to HDF5

*Model:* `_list2array`, `_load_label`, date conversions (635-753)  
*Theorems (proved):* `C57_save_load`, `C57_save_mixed`, `C57_mixed`, `C57_exact`, `C57_roundtrip`, `C57_only` in `Props/IO.lean`, `Props/IOLabel.lean`  
*Proof:* Per-type round trip; calendar bijection.  
*Scope:* All label lists, over Python int/float/str/bool/date/time/datetime values; calendar arithmetic (toordinal/fromordinal) proved inverse.

### C58 repack never loses the archive

*Model:* `repack` (574-608) as file-system steps  
*Theorems (proved):* `C58_repack`, `C58_root`, `C58_clobbers` in `Props/Repack.lean`  
*Proof:* All prefixes of the step list (crash points).  
*Scope:* File system as a map from names to archives with atomic rename/remove; content of an open file arbitrary until closed.

### C59 clear empties the archive

*Model:* `clear` (150-155)  
*Theorems (proved):* `C59_clear`, `C59_nested` in `Props/IO.lean`  
*Proof:* Induction over the keys.  
*Scope:* C59_clear with the exact condition, C59_nested the failure.

### C60 Lazy archive indexing equals load then index

*Model:* `lara` (255-370)  
*Theorems (proved):* `C60_lara`, `C60_lazy`, `C60_succeeds`, `C60_eq`, `C60_list`, `C60_negative`, `C60_stale` in `Props/Lara.lean`  
*Proof:* h5py selection = numpy selection on increasing lists; C33.  
*Scope:* h5py's selection is modelled (orthogonal, lists must increase as written, read in file order; zero-length selections allowed or not by a parameter). C60_negative and C60_stale are the counterexamples outside the hypotheses.

### C61 ismissing agrees with the missing marker and nans

*Model:* la/missing.py, `ismissing` (3870-3929)  
*Theorems (proved):* `C61_ismissing`, `C61_ismissing_array`, `C61_nans` in `Props/Missing.lean`  
*Proof:* Cases on dtype.  
*Scope:* method, function and nans.

### C62 stack builds a 3d larry of aligned pages

*Model:* `stack` (la/flarry.py:1339-1405)  
*Theorems (proved):* `C62_stack`, `C62_errors` in `Props/Stack.lean`  
*Proof:* C18-style joins, then page-wise assignment.  
*Scope:* for bool, int and float larrys; the keywords are labels

### C63 sortby reorders along the other axis

*Model:* `sortby` (1701-1767)  
*Theorems (proved):* `C63_sortby`, `C63_errors` in `Props/Stack.lean`  
*Proof:* `Reindexed` calculus with argsort's contract.  
*Scope:* argsort is a parameter with its specification

### C64 Every history of larry methods keeps the larry well-formed

*Model:* 46 kinds of method calls in `History`  
*Theorems (proved):* `C64_step`, `C64_history`, `C64_program`, `C64_unfair` in `Props/History.lean`  
*Proof:* One validity lemma per method; induction over the program.  
*Scope:* C64_history for all histories of 46 kinds of calls; C64_step for one call; C64_unfair shows the side conditions are needed (other than for binaryop with a skipped axis). Larrys are values in this model; aliasing is C23.

### C65 split divides a larry into train and test without loss

*Model:* `split` (la/util/resample.py:136-)  
*Theorems (proved):* `C65_split`, `C65_bootstrap` in `Props/Resample.lean`  
*Proof:* From C34.  
*Scope:* index lists that partition the axis; bootstrap pairs shown to raise

### C66 The order of labels does not matter to label-based calls

*Model:* The label-based calls of `History`  
*Theorems (proved):* `C66_step`, `C66_program`, `C66_scalars`, `C66_canonical`, `C66_reorders` in `Props/Reorder.lean`  
*Proof:* A relation `Reordered` between larrys; one agreement lemma per method, derived from the specifications of the other properties; induction over the program.  
*Scope:* C66_step for one call, C66_program for programs, C66_scalars for scalar results, C66_canonical for sortaxis, C66_reorders for ways to reorder. Exact numbers: in floating point a sum in another order may differ in the last bits. Positional calls (indexing, lix, take), cumulative and moving functions, lag, push, quantile, sortby and masks are not in this class.

### C67 cov: mean products over common columns

*Model:* `cov` (la/flarry.py:1471-1502), `covMissing` (la/farray/misc.py:136-160)  
*Theorems (proved):* `C67_cov`, `C67_symmetric`, `C67_variance`, `C67_semidefinite`, `C67_order`, `C67_errors`, `C67_bool`, `C67_indefinite` in `Props/Cov.lean`  
*Proof:* Direct computation of the entries; the quadratic form is written as a sum of squares; agreement along `Reordered`.  
*Scope:* Exact rationals in place of floats; infinities are excluded from the value theorem; the bool case is C67_bool.

### C68 geometric_mean is the geometric mean of the numbers present

*Model:* `geometric_mean` (la/farray/misc.py:9-35) over the reals with NaN and infinities  
*Theorems (proved):* `C68_product`, `C68_quotient`, `C68_units`, `C68_geometric_mean`, `C68_check`, `C68_negative`, `C68_unique`, `C68_bounds` in `Props/GeoMean.lean`, `Props/RealStats.lean`  
*Proof:* Sum of logarithms by induction; log x <= x - 1 for the average.  
*Scope:* Exact reals in place of floats; infinities excluded. The labels of larry.geometric_mean are those of any reduction (C42).

### C69 correlation is Pearson's coefficient over the places where both are present

*Model:* `correlation` (la/farray/misc.py:37-134) over the reals with NaN and infinities  
*Theorems (proved):* `C69_correlation`, `C69_int`, `C69_bounds`, `C69_unique`, `C69_units`, `C69_symmetric` in `Props/RealStats.lean`  
*Proof:* Both branches reduced to one ratio of sums; a sum of squares gives Cauchy-Schwarz and its equality case.  
*Scope:* Exact reals in place of floats; infinities, bool arrays, 0d arrays and broadcasting of different shapes excluded.

### C70 shuffle moves whole slices, shufflelabel moves labels

*Model:* `shuffle`, `shufflelabel` (3819-3866), `shuffle` (la/farray/misc.py:162-182), the loop of np.random.shuffle  
*Theorems (proved):* `C70_shuffle`, `C70_shufflelabel`, `C70_axis`, `C70_uniform` in `Props/Shuffle.lean`  
*Proof:* One swap of slices and labels changes no labelled value; induction over the loop and the axes; uniqueness from the last position.  
*Scope:* The draws of the random number generator are an argument. np.random.shuffle slices its elements if the first one has a length, so mixed str/number labels raise TypeError; labels of one kind are modelled.

### C71 maxlabel, minlabel and isaligned

*Model:* `maxlabel`, `minlabel` (2562-2595), `isaligned` (la/flarry.py:565-568)  
*Theorems (proved):* `C71_maxlabel`, `C71_minlabel`, `C71_axis`, `C71_isaligned`, `C71_align`, `C71_aligned_op` in `Props/Queries.lean`  
*Proof:* Induction over lists; C16 and C09.  
*Scope:* Labels of one ordered type; Python 2 comparisons between types are not modelled.

### C72 Elementwise methods act on each labelled value alone

*Model:* `log`, `exp`, `sqrt`, `sign`, `power` (142-291), `__neg__`, `__pos__`, `abs`, `isnan`, `isfinite`, `isinf`, `invert` (464-637), `nan_replace` (4062-4079), `astype` (4155-4195)  
*Theorems (proved):* `C72_makes_unique`, `C72_elementwise`, `C72_invert_type_error`, `C72_neg_neg`, `C72_invert_invert`, `C72_astype_back`, `C72_exactly_one`, `C72_nan_replace_isnan`, `C72_sign_mul_abs`, `C72_power_add` in `Props/Elementwise.lean`  
*Proof:* The model's function is compared with a relation `Makes` per method, shown single-valued; cases on dtype and value.  
*Scope:* log, exp and sqrt are an arbitrary function of the float. Exponents are whole and >= 0. Ints and floats are unbounded and exact, so overflow and rounding are not modelled. What conversion of NaN and infinities to int gives is a parameter. String and object larrys are not modelled here.

### C73 Programs of data moves do not look at the data

*Model:* The 24 calls of `Cmd.Rel`, run by `runAll` (Verif/History.lean)  
*Theorems (proved):* `C73_step`, `C73_program`, `C73_moves`, `C73_no_new_values`, `C73_units`, `C73_units_add`, `C73_units_merge`, `C73_units_sum` in `Props/Param.lean`  
*Proof:* A relation on values is lifted to arrays and larrys; one lemma per method that related inputs give the same exception or related outputs (Verif/Param*.lean); induction over the program. `g` and units are two choices of R.  
*Scope:* 24 of the 46 kinds of call in the history model take part. A call that raises leaves both runs unchanged. Functions passed in (ufuncs, reductions) must respect R; addition, subtraction, merge and nansum are shown to respect units. Floats are exact rationals with nan and infinities.

### C74 Operators with a number or an array on either side

*Model:* `__add__` to `__rmul__` (646-954) with a scalar or array; numpy's add, subtract, multiply, divide, true_divide, floor_divide on bool, int, float (Verif/Arith.lean)  
*Theorems (proved):* `C74_right`, `C74_left`, `C74_right_scalar`, `C74_left_scalar`, `C74_bool_minus_larry`, `C74_bool_minus_larry_wrong`, `C74_truediv_python2` in `Props/Arith.lean`  
*Proof:* Plus, times, over and floor on numbers are specified by relations shown equal to the model's functions; then cases on dtypes and C12's broadcasting.  
*Scope:* Ints and floats are exact and unbounded, so overflow, rounding and signed zeros are not modelled. Strings and objects are not modelled here. Arrays that broadcast to a larger shape are C12.

### C75 Sums and products of larrys do not depend on order or parentheses

*Model:* `__add__`, `__mul__` between larrys (646-690, 910-954), `__align` (1725-1751)  
*Theorems (proved):* `C75_any_order`, `C75_plus_times`, `C75_sums`, `C75_bools`, `C75_mixed_bools` in `Props/Chain.lean`  
*Proof:* Induction over the expression with C09: labels of an axis are the common list if all agree, else the sorted intersection of all; values are totals in a commutative semigroup (Mathlib's `WithOne` product, invariant under permutation).  
*Scope:* Ints and floats are exact, so rounding and overflow (which make float sums depend on order) are not modelled.

### C76 A larry written to a csv file is read back

*Model:* `tocsv`, `fromcsv` (4750-4756, 4824-4829), `fromtuples` on rows of text (4550-4558), Python's csv writer and reader, lines of text files  
*Theorems (proved):* `C76_rows`, `C76_rows_exact`, `C76_no_final_break`, `C76_unclosed_quote`, `C76_roundtrip`, `C76_skiprows`, `C76_skiprows_python3`, `C76_bad_value`, `C76_blank_line`, `C76_bool`, `C76_empty`, `C76_line_breaks_lost`, `C76_same_text_lost` in `Props/Csv.lean`  
*Proof:* Invariant of the reader's state machine over characters: after an encoded field it is in a state that saves exactly that field at a delimiter or line end; induction over fields, rows and files. Universal newlines commute with the encoding. The values then follow from C28 and C29.  
*Scope:* Python's csv module (default dialect) is modelled as a quoting writer and the reader's state machine. The conversions of a label or value to text and of text to float are parameters; the theorem assumes that float undoes the text of each value of the larry.

### C77 Functions that create larrys give the cells and labels asked for

*Model:* `lrange`, `empty`, `ones`, `zeros` (la/flarry.py:1844-2088), `rand`, `randn` (1585-1601, 1683-1699)  
*Theorems (proved):* `C77_lrange`, `C77_lrange_distinct`, `C77_filled`, `C77_empty`, `C77_errors`, `C77_shape_ignored`, `C77_rand`, `C77_rand_validate` in `Props/Create.lean`  
*Proof:* The length of `arange` by exact rational arithmetic; reshape by row-major positions, which are distinct (C28); the constructor by C06.  
*Scope:* Shapes have no negative entries; start and step of lrange are ints (as documented); the argument order is left out.

### C78 Programs look at labels only by comparing them

*Model:* Every method and function of the command language of C56 (`Cmd`, 46 calls), through their existing models  
*Theorems (proved):* `C78_step`, `C78_program`, `C78_get`, `C78_no_new_labels`, `C78_order_matters`, `C78_distinct_matters` in `Props/Rename.lean`  
*Proof:* For each list primitive and each method an equation: the method on renamed arguments is the renamed result (Verif/Rename*.lean); induction over the program. No new labels: run the program over the subtype of the set and rename by the inclusion.  
*Scope:* Calls that raise leave the variables as they were, as in C56. Labels of one program come from one linear order.

### C79 tofile writes a table that can be taken apart again

*Model:* larry.tofile: the dimension check, the lines, `delimiter.join`, opening a named file or writing to a file object  
*Theorems (proved):* `C79_refused`, `C79_written`, `C79_table_1d`, `C79_table_2d`, `C79_no_columns`, `C79_same_file`, `C79_delimiter_in_label`, `C79_dimensions_lost` in `Props/Tofile.lean`  
*Proof:* Python's str.split as a separate function; splitting inverts joining by induction over the fields and over the lines; lookups in the table are then list indexing.  
*Scope:* Python's str() on labels and elements is a parameter.

### C80 Programs of copying calls and in-place writes can be understood with larrys as values

*Model:* The memory model of C23 (Verif/Heap.lean) with all its methods; programs are lists of its steps  
*Theorems (proved):* `C80_step`, `C80_program`, `C80_regular`, `C80_view_shares` in `Props/HeapProg.lean`  
*Proof:* Two program logics over the memory model: `Safe` (which cells a call touches) and `Good` (Verif/HeapOwn.lean: lists of lists without repetition, arrays that show each cell once). Simulation: each step preserves the relation between references with pairwise disjoint footprints and a store of values; induction over the program.  
*Scope:* Calls that return views (squeeze, pull, indexing with integers and slices) and binaryop with fills are outside this statement; C23 says what they do.

### C81 quotes makes one table of the days downloaded for several tickers

*Model:* `split`, `parse_yahoo_historical`, `quotes_historical_yahoo`, `quotes` with its loop, the in-place adjustment and the final slice (Verif/Yahoo.lean), on the modelled larry constructor, insertaxis, merge, sortaxis and indexing  
*Theorems (proved):* `C81_quotes`, `C81_adjusted`, `C81_order`, `C81_order_adjusted`, `C81_errors` in `Props/Yahoo.lean`  
*Proof:* `Carry` relates lines to days; the loop over tickers by induction with the invariant `Loaded`, each step by C20 (merge); then C24 (sortaxis), cell by cell for the adjustment, C33 for the slice. Order independence because the table determines the larry.  
*Scope:* The text of the answer is arbitrary; float, int and date reading are parameters. The address asked for and IOError are not modelled.

### C82 Rankings see only the order of the values

*Model:* The existing models of ranking, lastrank, quantile, group_ranking, push, clip, keep_x and vacuum, run on two larrys related by f.  
*Theorems (proved):* `C82_ranking`, `C82_lastrank`, `C82_quantile`, `C82_group_ranking`, `C82_push`, `C82_clip`, `C82_vacuum`, `C82_keep_x`, `C82_ranking_reversed`, `C82_lastrank_reversed` in `Props/Order.lean`  
*Proof:* Each line function is shown to look at its numbers only through comparisons (lt, eq, isNan, isFinite), then lifted to larrys through the lines of the array; reversal by counting: less + equal + greater = number of non-NaN values.  
*Scope:* f is a function on rationals; floats are exact rationals in the model, so a change of units that rounds two values together is outside it. quantile assumes an argsort whose result is fixed by comparisons.

### C83 A change of units goes through the statistics

*Model:* The existing models of demean, zscore, movingsum_forward, cumsum, group_mean, group_median and cov, run on two larrys related by a*v + b in float arithmetic.  
*Theorems (proved):* `C83_demean`, `C83_mean`, `C83_zscore`, `C83_movingsum_forward`, `C83_cumsum`, `C83_group`, `C83_cov` in `Props/Units.lean`  
*Proof:* a*x + b commutes with float addition and subtraction (offsets add), with division by a count and with multiplication by a positive number; the running sums and counts of movingsum are paired and carried through cumulation and differencing by a homomorphism lemma.  
*Scope:* bn.nanmedian and bn.nanstd are parameters, assumed to move and scale with the values; bn.nanmean is proved to. Floats are exact rationals, NaN and infinities.

### C84 A total does not depend on how it is taken

*Model:* Verif/ReduceMethods.lean: sum, max, min, any, all as __reduce with the functions of Bottleneck and Numpy written out; prod as in C44; cumsum as in C43. The specification is the inductive set of values one can arrive at.  
*Theorems (proved):* `C84_sum`, `C84_max`, `C84_min`, `C84_any_all`, `C84_sum_infinities`, `C84_prod`, `C84_cumsum_last` in `Props/Totals.lean`  
*Proof:* The elements of an array are a permutation of its lines along any axis (from the enumeration of positions); a fold of a commutative and associative operation that skips NaN and never produces it can be taken in parts; induction on the way the total was arrived at. The last of a running sum is the fold of the whole line.  
*Scope:* bn.nansum, bn.nanmax, bn.nanmin, np.any and np.all are written out on exact numbers (Bottleneck 0.7: NaN for a line of NaNs). Larrys without elements are left to C42. The condition on sum is shown to be needed.

### C85 When lastrank is the last slice of ranking

*Model:* lastrank as in C47 and ranking as in C48; the condition on a line is stated with the values of the line only.  
*Theorems (proved):* `C85_lastrank`, `C85_lastrank_1d`, `C85_doc_claim` in `Props/LastSlice.lean`  
*Proof:* For one line the two results are fractions with the number of finite and of non-NaN values; they are equal exactly under the condition, by counting. Lifted to the cells by the characterisation of reductions (C42) and of ranking.  
*Scope:* The sentence in the documentation is false as it stands; the theorem gives the exact condition for each line, and C85_doc_claim two lines for which it fails.

### C86 Doing it twice is doing it once

*Model:* ranking, demean, zscore, keep_x, keep_label, morph_like, squeeze and merge as modelled for the earlier properties.  
*Theorems (proved):* `C86_ranking`, `C86_demean`, `C86_mean`, `C86_demean_infinite`, `C86_zscore`, `C86_morph_like`, `C86_keep_label`, `C86_squeeze`, `C86_keep_x`, `C86_merge` in `Props/Twice.lean`  
*Proof:* The ranks keep order, ties and NaN of a line, so that ranking them counts the same; a centre that moves along becomes 0 and a spread becomes 1; the label methods by applying their characterisations twice. Along an axis, the lines of the result are the images of the lines.  
*Scope:* The median and the standard deviation are parameters: a centre that moves with the values, and a spread in the units of the values that does not depend on their origin. clip, vacuum and sortaxis are treated in C45, C39 and C24.

### C87 What the assertions for copies, views and equality guarantee

*Model:* assert_iscopy, assert_isview, noreference, nocopy and the larry branch of assert_larry_equal on the memory model of C23; an assertion returns the list of its complaints.  
*Theorems (proved):* `C87_iscopy`, `C87_copies_pass`, `C87_write`, `C87_isview`, `C87_complaints`, `C87_references`, `C87_errors`, `C87_equal`, `C87_equal_exact`, `C87_equal_numbers`, `C87_original`, `C87_iscopy_axes`, `C87_noreference`, `C87_isview_data` in `Props/Testing.lean`  
*Proof:* What the two larrys refer to are two disjoint closed parts of the memory; a step by one side stays in its part and new memory, by induction over the steps. Copies pass because all their parts are new (C23). Equality position by position is equality name by name, and the comparison of elements is decided by cases on the dtype.  
*Scope:* np.may_share_memory and the tolerance of assert_almost_equal are parameters. The scalar branches of assert_larry_equal, its fall-back on TypeError, printfail and the texts of the messages are not modelled. The two gaps of assert_iscopy are hypotheses (Ordinary), with a witness for the shared lists.

### C88 What a printed larry tells

*Model:* __repr__ line by line, with the choice of the labels shown.  
*Theorems (proved):* `C88_ok`, `C88_short`, `C88_long`, `C88_dots`, `C88_break` in `Props/Print.lean`  
*Proof:* The text is read back uniquely: it is split into lines, headings start with l, labels with a space, and the first line x ends the labels; by induction over lines and axes.  
*Scope:* str of a label, the decimal of an axis number and repr of the array are parameters (the decimal without line breaks).

### C89 Tables line up and can be read, and the listing of an archive is complete

*Model:* indent with Python 2's map(None, ...), including what it does to a single sequence, and IO.__repr__ on the archive of C56.  
*Theorems (proved):* `C89_table`, `C89_offset`, `C89_errors`, `C89_python3`, `C89_one_column`, `C89_one_line`, `C89_listing`, `C89_empty`, `C89_listing_python3`, `C89_same_listing` in `Props/PrettyTable.lean`  
*Proof:* The physical rows are computed explicitly, widths are maxima over columns, and lines are joined cells of exactly those widths. A listing is read back from the places of the column names in its first line; then cell by cell.  
*Scope:* str of a dtype and of a shape are parameters; NameError (reduce under Python 3, no rows) is written as RuntimeError. The archive is that of C56.

### C90 Wrapped text keeps its content and its width

*Model:* The three functions; the regular expression as maximal runs of characters that are not white space.  
*Theorems (proved):* `C90_always`, `C90_only_spaces`, `C90_long_lines`, `C90_breaks`, `C90_strict`, `C90_tab`, `C90_zero` in `Props/Wrap.lean`  
*Proof:* Invariants of the fold over the words on the list of lines so far; a run-length predicate for the strict version.  
*Scope:* Python 2 (reduce). The quotient in wrap_always is exact. White space is that of byte strings.

### C91 The numbers that sum, prod, mean, median, var, std, max, min, any and all return

*Model:* The functions of Bottleneck and Numpy that the methods hand to __reduce (C42), as functions on lists of extended numbers.  
*Theorems (proved):* `C91_sum`, `C91_mean`, `C91_median`, `C91_var`, `C91_std`, `C91_max`, `C91_min`, `C91_any`, `C91_all`, `C91_prod`, `C91_empty`, `C91_empty_truth`, `C91_errors`, `C91_middle`, `C91_demedian` in `Props/Stats.lean`  
*Proof:* Sums by induction over the four kinds of lines (NaN only, finite, one infinity, both); the median by sortedness of insertion sort; extremes by an invariant of the fold; then C42 for every axis.  
*Scope:* Exact arithmetic in place of floats and no overflow of ints. Bottleneck's functions are written out as lists functions from their documentation and source; the square root in std is a parameter. any and all of objects are not modelled.

### C92 A part of a larry gets the same numbers as the whole

*Model:* The methods as modelled for C42, C44 and C46-C52; an enumeration of the calls with arguments.  
*Theorems (proved):* `C92_part`, `C92_commute`, `C92_errors`, `C92_vacuum`, `C92_cut_missing`, `C92_lag`, `C92_move`, `C92_reduce`, `C92_prod` in `Props/Parts.lean`  
*Proof:* A method along an axis is a function of the line (Along with a functional relation); the lines of the part are lines of the whole by the definition of a part; then labels name the same cells on both sides.  
*Scope:* For reductions both larrys must have cells (an empty part gives defaults, C91_empty). Functions left open by the model (sort, argsort, std, median of a line) are the same for part and whole. move_func for lines at least as long as the window. prod for floats.

### C93 Assignment to a part of a stored larry

*Model:* lara.__setitem__ with scalars, larrys and boolean larrys; the positions h5py writes to; the write of one dataset.  
*Theorems (proved):* `C93_assign`, `C93_cells`, `C93_rest`, `C93_mask`, `C93_mask_outcome`, `C93_error`, `C93_larry`, `C93_larry_aligned`, `C93_succeeds`, `C93_succeeds_mask`, `C93_program`, `C93_history`, `C93_stale` in `Props/LaraSet.lean`  
*Proof:* An archive that differs in the elements of one dataset has the same labels, keys and laras (OneArray). The positions h5py selects are those numpy selects, so the assignment is the one of C37. The representation invariant of C56 is kept by a write, which gives the refinement of a dictionary by induction over the calls.  
*Scope:* Scalars as values, after the cast to the dtype of the dataset. h5py 2.x selections are part of the model. Witnesses: C93_larry_aligned (assigning an aligned larry is a TypeError), C93_stale (an old lara writes to the wrong labels after the key is overwritten).

### C94 Looping over an archive

*Model:* IO.items, values, iterkeys, itervalues, iteritems, has_key, __iter__; loops as a fold that stops at the first exception.  
*Theorems (proved):* `C94_items`, `C94_each`, `C94_update`, `C94_copy`, `C94_lazy`, `C94_removed`, `C94_stale`, `C94_slash` in `Props/IOLoop.lean`  
*Proof:* The representation invariant of C56/C93 is carried through the loop by induction over the list of keys; a call depends on and changes what is under its own key only.  
*Scope:* Copying with [:] needs an h5py that allows empty selections, or larrys with cells. Witnesses: C94_removed (KeyError for a key removed ahead), C94_stale (items() has outdated laras), C94_slash (overwriting a key with a slash in a loop is a RuntimeError).

### C95 A formula of larrys is the formula of their cells

*Model:* `&`, `|` and the six comparison operators on numbers (`Formula.lean`: `RelOp`, `LogicOp`, `BinOp`), scalars on either side with the reflected methods, and expression trees with Python's left-to-right evaluation (`Formula.eval`).  
*Theorems (proved):* `C95_formula`, `C95_same`, `C95_not_and`, `C95_not_less`, `C95_equal`, `C95_reflected`, `C95_isnan`, `C95_assign`, `C95_nan_not_less` in `Props/Formula.lean`  
*Proof:* Induction on the typing of the tree (`eval_formula`): labels by joining the inner joins of the operands (`AllInner.join`), cells by the pointwise theorems for one operator (C09, C11, C72, C74). The specification is a relation `Gives` between the numbers in one cell and the value of the tree, with no arrays and no labels in it; it has at most one value (`Gives.unique`). `C95_same` transfers any law between numbers to larrys; the laws listed follow from it. `C95_assign` adds C37.  
*Scope:* For all expression trees over bool, int and float larrys with the same number of axes. Ints and floats are exact and unbounded; strings and objects are not covered; the value assigned in y[condition] = v is taken as already cast to the dtype of y.

### C96 la.add, la.subtract, la.multiply and la.divide

*Model:* `la.add`, `la.subtract`, `la.multiply`, `la.divide` as calls of the model of `binaryop` (`FlarryArith.lean`); expression trees of such calls with an outer join.  
*Theorems (proved):* `C96_outer`, `C96_any_order`, `C96_operator`, `C96_operator_refused`, `C96_operator_ndim`, `C96_infinite` in `Props/FlarryArith.lean`  
*Proof:* `C96_operator` compares C22 with C09 cell by cell. `C96_outer`: induction on the tree with the invariant that a cell holds the total of the numbers present in the leaves (`pair_cell` is the monoid law for 'missing or a number'), labels by joining outer joins (`AllOuter.join`). `C96_any_order` follows because list sums, products and `AllOuter` do not see order.  
*Scope:* The fill value is assumed to be 0 (1) after numpy's conversion to float. Witness C96_infinite: with infinite numbers the order matters. Results with join='skip' (a label list that is None) are outside.

### C97 Moving statistics are the ordinary statistics of the last window

*Model:* `move_func` with a reduction, `move_median`, `move_ranking` (`Moving.lean`) on top of the memory model of C50; compared with the models of `take`, `lag`, `median`, `lastrank`, `movingsum_forward`.  
*Theorems (proved):* `C97_window`, `C97_median`, `C97_ranking`, `C97_refused`, `C97_arguments`, `C97_method`, `C97_one`, `C97_whole`, `C97_lag`, `C97_lead`, `C97_forward` in `Props/Moving.lean`  
*Proof:* C50 gives the value as a function of the window of a line; `window_part` shows that the larry `take` returns has exactly that window as its line, so C42 gives the same value. The lag theorems compare windows of the two lines; `nansum_window` evaluates `bn.nansum` on a window for C51.  
*Scope:* Functions are given by what they do to one line, as in C42 and C91; the larry has elements where the ordinary method is compared. C97_forward excludes infinite numbers (cumulative sums). The methods move_sum, move_mean, move_std, move_min and move_max call Bottleneck's compiled loops, which are not modelled.

### C98 Putting many larrys together with merge

*Model:* Trees of calls of the model of `merge` of C20.  
*Theorems (proved):* `C98_merge`, `C98_clash`, `C98_parentheses`, `C98_any_order`, `C98_pieces` in `Props/MergeMany.lean`  
*Proof:* Induction over the tree with the invariant `MergedFrom`: labels are the outer join of those of all larrys, present values are the `Newest`. C20 gives one step. The corollaries follow since labels, dtype and values determine a larry.  
*Scope:* Each larry occurs as an object of its own, since merge may write into the larry it is called on (C23). A value is one that merge regards as present: infinite numbers count as missing, as in C20, so that the last three theorems compare larrys without infinite numbers (C98_pieces: the finite values).

### C99 What lix, flatten, panel, stack, cov, align_axis, sortby, getx, getlabel, copylabel, lrange, ones and zeros share with their arguments

*Model:* `Verif/HeapMore.lean`: the calls on references, with the memory model of C23; a program may use all steps of C23 and all these calls.  
*Theorems (proved):* `C99_fresh`, `C99_independent`, `C99_values`, `C99_lix`, `C99_lix_self`, `C99_create`, `C99_lix_list_kept`, `C99_create_shared` in `Props/HeapMore.lean`  
*Proof:* Independence as in C23: a call is run with the addresses it may touch as an invariant (`Safe`), and two parts of a program that refer to disjoint parts of the memory stay apart (`Apart.run`). Values: every call refines the function on values (`Yields`, Verif/HeapMoreRun.lean).  
*Scope:* The claim in general terms (all of them independent of their arguments) is false of the code for lix with lists and for label=: C99_lix and C99_create state exactly what is shared, C99_lix_list_kept and C99_create_shared show the consequences (findings 41, 42). lix of a single entry that is not a tuple is y[...] and shares as in C23; its values are covered by C99_values. sortby is stated for larrys with at most two label lists (it raises for other dimensions).

### C100 Changes along different axes can be made in any order

*Model:* The model's own take, flipaxis, sortaxis, keepLabel, morph, lag, maplabel and getitem; `MovedBy` says by names what such a call leaves: each line comes from a line of the old larry or from nowhere.  
*Theorems (proved):* `C100_each`, `C100_returns`, `C100_commute`, `C100_regroup`, `C100_lag_lag`, `C100_keep_nothing` in `Props/AnyOrder.lean`  
*Proof:* C100_each derives `MovedBy` for each call; C100_commute composes two of them on different axes and compares names, dtypes and markers; C100_regroup is by induction over the program, putting a call off until before the next call on its axis.  
*Scope:* Each call has to find what it looks for: keep_label that keeps nothing returns larry([]), after which the other axis is gone (C100_keep_nothing, finding 43), and maplabel must not make two labels of an axis equal (the code does not check). For the other calls C100_returns shows that returning is the same as finding what they look for.

### C101 unique lists the different values of a larry

*Model:* `unique` and the steps of `np.unique` (Verif/Unique.lean): argsort, the flags of elements that differ from the one in front, the selection by flags, the running count and the inverse permutation.  
*Theorems (proved):* `C101_values`, `C101_determined`, `C101_index`, `C101_inverse`, `C101_asked`, `C101_index_is_flat` in `Props/Unique.lean`  
*Proof:* By induction over the sorted list: kept elements increase strictly until the NaNs, the running count finds each value among those kept, NaNs are all kept; C28 turns positions into names. C101_determined: two lists with these clauses are permutations of each other and both in order, so equal.  
*Scope:* np.unique is part of the model (NumPy 1.6 and 1.7); the sort inside it is any function that sorts arrays of one dtype (exMergesort_sorts, exMergesort_stable show there is one). Arrays of objects are left out. Positions count along the flattened data: with more than one axis they are no positions for y[...], though the docstring writes lar[indices] (C101_index_is_flat, finding 44).

### C102 The group methods are the ordinary methods on the part that holds a group

*Model:* `Larry.groupBy` with the three group methods (Verif/Group.lean), `morph`, `ranking`, `mean`, `median` of the part.  
*Theorems (proved):* `C102_ranking`, `C102_mean`, `C102_median`, `C102_names`, `C102_one_ranking`, `C102_one_mean`, `C102_one_median`, `C102_twice`, `C102_own` in `Props/GroupParts.lean`  
*Proof:* groupBy_spec of C53 gives the cell as the method's value on the members of the group; `group_places` shows labels and members of a group sit at the same places, so the line of the part is the list of members (`group_part_line`). The rest follows cell by cell; C102_twice also uses that each method on a line is idempotent.  
*Scope:* group_median uses the median of the model of bn.nanmedian (medianOf), the one y.median uses. The sort of the group names is any function that permutes; Python 3 raises TypeError when group names of different kinds are sorted, which the model leaves out (as in C53). Mean and median along the axis need a larry with elements.

### C103 Archives are opened and closed so that every call sees what the calls before it wrote

*Model:* Files, open handles and their modes; `_openfile`, `h5py.File`, `close`, and every function of la/io.py that uses them as steps `Files → Files × outcome` (Verif/Files.lean).  
*Theorems (proved):* `C103_call`, `C103_returns_closed`, `C103_name_or_file`, `C103_program`, `C103_collected`, `C103_separate`, `C103_other`, `C103_misspelt`, `C103_locked`, `C103_missing_key_locks`, `C103_is_archived_larry` in `Props/Files.lean`  
*Proof:* Each body acts on the content as the function of Verif/IO.lean (`Acts`, closed under sequencing); opening and closing around it gives `DoesTo`: outcome, content and number of files left. Induction over the loop of `clear` and over programs. For locked files an invariant (`Locked`, `Keeps`) kept by every step.  
*Scope:* h5py and HDF5 are part of the trusted base: h5py.File(name) opens for writing unless the file is open for reading, then for reading; h5py.File(name, 'r') raises IOError if there is no such file; a write to a file open for reading raises (which exception is not claimed). Permissions, other processes and the moment the interpreter frees a traceback are not modelled. What each function does to the content is Verif/IO.lean (C33, C56, C60, C68).

### C104 Larger data have larger statistics, and statistics lie between the extremes

*Model:* The reductions, moving functions, `cumsum` and `clip` already modelled (C43, C45, C91, C97).  
*Theorems (proved):* `C104_grows`, `C104_grows_finite`, `C104_between`, `C104_var`, `C104_moving`, `C104_cumsum`, `C104_clip_order`, `C104_clip_range`, `C104_infinities`, `C104_negative_variance` in `Props/Growth.lean`  
*Proof:* Order on floats with NaN (`AtMost`, `NotAbove`); pointwise comparison of two lists of floats gives comparison of sums, means, sorted lists (hence medians), maxima and minima by induction; lifted to lines of labelled larrys. Variance: sum of squares is nonnegative and zero iff all are equal.  
*Scope:* Floats are exact rationals with NaN and infinities; with rounding, the mean of equal numbers may exceed their maximum in the last bit. A sum of infinities of both signs is NaN, so monotonicity is claimed where both results are numbers (C104_infinities).

### C105 A call that raises leaves everything as it was

*Model:* The programs of C23 and C99 on references, where what was written before an exception stays written; `maplabel` with a function that may raise (Verif/MapTry.lean); the calls on archives of C103.  
*Theorems (proved):* `C105_act`, `C105_call`, `C105_maplabel_total`, `C105_maplabel`, `C105_maplabel_partway`, `C105_archive`, `C105_files`, `C105_save_existing`, `C105_binaryop_writes`, `C105_maplabel_half` in `Props/Raises.lean`  
*Proof:* A rule for sequences: what comes before the last point that can raise writes to nothing that was there (`Frame`), what comes after cannot raise (`Never`); applied to every call. `maplabel` in place: induction on the axes left. Archives: by cases on the call, lifted to files by C103.  
*Scope:* In-place operations of numpy (putmask, x[...] = v, shuffle) are taken to check their arguments before they write. For save, io[key] = y and clear() see C56_failed_set, C56_brick and C59.

### C106 No look-ahead: later data have no influence on earlier results

*Model:* The programs of C64 (`Cmd`, `runAll`) over the methods of the model; two runs are compared with `Larry.Until`: same labels, same dtype, same values in the cells without later labels.  
*Theorems (proved):* `C106_step`, `C106_program`, `C106_lag_ahead`, `C106_movingsum_forward_ahead`, `C106_ranking_ahead`, `C106_demean_ahead`, `C106_cumsum_ahead`, `C106_vacuum_ahead` in `Props/Lookback.lean`  
*Proof:* One lemma per method, from its specification by labels (C01-C53) or from its line function: a line function that at each place depends on the elements up to there only (`Causal`: running sums, push, moving windows, by induction on the line) respects `Until` along an axis in time order; any line function does along an axis that is not the time axis. Then induction on the program. Instances evaluated by the kernel show the conditions are needed.  
*Scope:* A step or a window that is not in the class of calls (vacuum, cut_missing, keep_x, sortby, merge with update=False, axis=None for ranking, demean and zscore) either looks ahead or decides by the data which labels or exceptions there are.

### C107 Moving sum, mean, minimum, maximum and standard deviation are those of each window

*Model:* `MoveBn.lean`: the loop of `bn.move_nansum` and `bn.move_nanmean` with its running sum and count (`addIn`, `subOut`, `runWindow`), the windows of `bn.move_nanmin`, `bn.move_nanmax` and `bn.move_nanstd` by contract, and the five larry methods.  
*Theorems (proved):* `C107_sum`, `C107_mean`, `C107_min`, `C107_max`, `C107_std`, `C107_errors`, `C107_move_func`, `C107_between`, `C107_no_look_ahead`, `C107_forward`, `C107_spoilt` in `Props/MoveBn.lean`  
*Proof:* Induction over the elements that come in, with the invariant that the running state is the sum and count of the window (`runWindow_get`), kept as long as what leaves is finite; a second invariant, that an infinity in the window has turned the sum into itself or NaN, gives NaN for good after it has left (`runWindow_after`). From there to larrys by lines; equality with `move_func` by C50, with `movingsum_forward` by C51 and C25.  
*Scope:* Bottleneck's running sum and count loop is modelled for move_sum and move_mean; move_min, move_max and move_std are modelled by Bottleneck's documented result for each window. Numbers are exact, so rounding of the running sum is not covered. Boolean arrays, for which Bottleneck falls back on SciPy, are left out. Finding 51: one infinity turns all later running values of its line into NaN.

### C108 Adding later data changes nothing that was there before

*Model:* The program model of C64 (`History.lean`). `Before.lean`: the relation between a larry and the larry without the later labels; `BeforeAxes.lean` and `BeforeLines.lean`: one lemma for each method that the relation is kept.  
*Theorems (proved):* `C108_step`, `C108_program`, `C108_unique`, `C108_keep_label`, `C108_commutes`, `C108_ranking_changes`, `C108_demean_changes`, `C108_morph_changes`, `C108_pull_changes`, `C108_mean_changes`, `C108_sum_changes` in `Props/Before.lean`  
*Proof:* Relational proof over two runs whose arrays differ in shape: each method is taken through its own specification theorem (joins C09 to C16, reindexing C05, axes C24 to C38, lines C43 to C53, stack C62, moving windows C50 and C107), so that only labels and values by label are compared. For methods along a line, the line of the first run is the beginning (or, reversed, the end) of the line of the second, and the result on it is the beginning of the result (`PrefixCausal`). Programs by induction over the calls (`C108_step`, `C108_program`); uniqueness of the cut larry (`C108_unique`) turns this into the commuting law for `keep_label`. Witnesses show six conditions to be needed.  
*Scope:* Stated for runs in which no call raises: a shorter axis can make a call raise (a window longer than the axis, a label not there yet). squeeze, getitem and lix by position, align_axis, sortby, vacuum, cut_missing and keep_x are not in the class; for the last ones see C106_vacuum_ahead. Findings 52 and 53, and C106's findings about calls that look ahead, show that the conditions are needed.

### C109 Running totals and differences undo each other

*Model:* `cumsum`, `cumprod` (`Numeric.lean`), `lag`, `binop` with `np.add`, `np.subtract`, `np.divide` (`Arith.lean`), `moveSum` (`MoveBn.lean`).  
*Theorems (proved):* `C109_moving_sum`, `C109_difference`, `C109_summed`, `C109_compounded`, `C109_ratio`, `C109_windows_add`, `C109_unsorted` in `Props/Differences.lean`  
*Proof:* The specifications of the methods are composed: C26 for the lag, C09 for the operation of two larrys (`lag_op₂`: labels and values of `x op y.lag(k)`), C43 for running totals, C107 for the moving sum. What remains is about one line of numbers: a window is a difference of two initial segments, and sums and products telescope, by induction on the position. A witness for labels that are not ascending.  
*Scope:* Exact arithmetic, no rounding. Finding 54 shows that ascending labels are needed for the sums and products of differences and ratios.

### C110 Labels, dtypes and exceptions do not depend on the values

*Model:* The language of programs (`History.lean`) and every method in it.  
*Theorems (proved):* `C110_step`, `C110_program`, `C110_merge_reads`, `C110_vacuum_reads`, `C110_cut_missing_reads`, `C110_keep_x_reads`, `C110_sortby_reads`, `C110_mask_reads` in `Props/Blind.lean`  
*Proof:* Relational proof over two runs. For most calls it is an instance of the theorems that relate two runs with the relation on values that is always true (C73's `_rel` lemmas) or of C106 with every label a later one; ranking, quantile, demean, zscore, prod, the group methods, keep_x and the assignments have proofs of their own. Programs by induction, with the invariant of C64. `outcomes` lists which call raises what. Witnesses for the calls that do read values.  
*Scope:* For the calls in the modelled language of programs (Cmd). The conditions are those listed in the statement; each call left out has a witness that it reads the values.

### C111 What an object used as an index means goes by its type

*Model:* `np.issubdtype` on numpy's scalar types, `isint`, `isfloat`, `isscalar`, `isstring`, the dispatch of `__getitem__` and `lix` on the type of the index, `int()` (`Objects.lean`).  
*Theorems (proved):* `C111_types`, `C111_isstring`, `C111_getitem`, `C111_refused`, `C111_tuple`, `C111_list_of_bools`, `C111_two_bools`, `C111_lix`, `C111_lix_tuple`, `C111_lix_float` in `Props/Objects.lean`  
*Proof:* Case analysis on the types; the integer part is characterised by inequalities and unique; a relation `Means` between objects and the indices of C33, shown to be a function, and equality of the calls. Three bools: two of them are equal, so a label is repeated.  
*Scope:* The class hierarchy of numpy's scalar types is modelled as a table. NaN and infinities as indices, lists of floats, float arrays and slices with float bounds are not modelled. The meaning is given by reduction to the integer indices of C33 and C35.

### C112 No axis is special

*Model:* The calls of C92 and C100, `__reduce`, `prod`, `move_func`, the elementwise methods, the operators, `T` and `swapaxes`.  
*Theorems (proved):* `C112_line`, `C112_T`, `C112_swapaxes`, `C112_reduce`, `C112_reduce_none`, `C112_whole`, `C112_elementwise`, `C112_binop`, `C112_move`, `C112_program`, `C112_transpose_first`, `C112_move_func`, `C112_prod`, `C112_quantile_none` in `Props/AnyAxis.lean`  
*Proof:* Orders of axes are permutations of `0 … n-1`; a relation `Turned` between a larry and the larry with its axes in that order, stated with names only. Lines along an axis correspond, hence so do results given line by line; the elements are a permutation of each other; programs by induction on the calls.  
*Scope:* C112_prod is for floats and larrys with cells. For moves the calls are shown to return together and not which exception is raised; keep_label when no label is left and maplabel when it makes duplicates are not part of programs (findings of C100).

### C113 What an operator does with the object on its other side

*Model:* `Operand`: the tests on the type of the operand in every operator method, `np.isscalar`, the reflected methods and Python's choice of the method, numpy's False for `==` of shapes that do not match.  
*Theorems (proved):* `C113_right`, `C113_left`, `C113_refused`, `C113_unmatched`, `C113_well_formed`, `C113_exceptions` in `Props/Operand.lean`  
*Proof:* An inductive relation says which operands offer which numbers to which operator. Broadcasting fails exactly if some axis, counted from the last, has two lengths that differ and are not 1, and keeps the shape exactly if the array fits; then the reading lemma of C74 for every operator, and a case analysis of the exceptions.  
*Scope:* An array or numpy scalar on the left of a comparison is left out (numpy 1.6 does not always hand it to the larry), and a bool minus a bool larry (C74). Lists and tuples are given by the array numpy makes of them. Strings and objects as data are not modelled.

### C114 What assert_larry_equal says about any two objects

*Model:* `TestingAny`: the checks of the arguments, the three branches, the comparison of scalars, the headings and the message.  
*Theorems (proved):* `C114_arguments`, `C114_scalars`, `C114_one_larry`, `C114_larrys`, `C114_other`, `C114_message`, `C114_message_title`, `C114_message_text`, `C114_message_test` in `Props/TestingAny.lean`  
*Proof:* Case analysis over the kinds of objects; the numbers by the cases of finite, infinite and NaN; the message by induction over its characters (taking the tabs away undoes the indentation) and over the complaints.  
*Scope:* Numpy's assert_equal and assert_almost_equal of two scalars are modelled for numbers and strings, with the tolerance a parameter; their texts are arbitrary. Complex numbers are not modelled. Objects of the last kind have no attribute label.

### C115 Statistics and moving statistics in other units

*Model:* The reductions of `Reduce`, `ReduceMethods` and `Stats`, the moving functions of `Moving` and `MoveBn`, the operators with a number of `Arith`; nothing new.  
*Theorems (proved):* `C115_statistics`, `C115_moving`, `C115_moving_ranking`, `C115_move`, `C115_operators`, `C115_sum_shift` in `Props/StatUnits.lean`  
*Proof:* Each statistic is determined by its specification of C91 (sums, means and variances by cases, the median through the uniqueness of the ordered list, the extremes through antisymmetry), and each specification goes through a*v + b, reversing the order if a < 0; then lines, windows and larrys as in C83 and C107.  
*Scope:* The square root is a parameter that takes a*a*x to |a| times the root of x. Floats are exact rationals with NaN and the infinities. A sum with b not 0 changes by b times the number of values that are not NaN, shown by a case.

### C116 What an assignment stores

*Model:* `Store`: `set`, `__setitem__`, `lix` assignment and `fill` with the conversion of the value to the dtype of the array; the rest as in C08, C36, C37.  
*Theorems (proved):* `C116_set`, `C116_set_errors`, `C116_own`, `C116_exact`, `C116_history`, `C116_fill`, `C116_setitem`, `C116_setitem_larry`, `C116_mask`, `C116_lix`, `C116_lix_larry`, `C116_truncates` in `Props/Store.lean`  
*Proof:* The conversion meets its specification by cases on the dtype (truncation through floor and ceiling, as in C45); C08, C36 and C37 with the converted value; the history by induction on the calls.  
*Scope:* numpy's conversion on assignment is given by its documented result. NaN and infinities into an int larry by indexing, strings and None into numbers, overflow and the length of string dtypes are not covered.

### C117 Labels with nothing under them do not count

*Model:* Nothing new; `WithEmpty` says of two larrys, by their labels and cells, that one is the other with empty labels added.  
*Theorems (proved):* `C117_reductions`, `C117_normalize`, `C117_running`, `C117_quantile`, `C117_elementwise`, `C117_arith`, `C117_binop`, `C117_morph`, `C117_align`, `C117_vacuum`, `C117_chain`, `C117_any_counts_nan`, `C117_ranking_counts`, `C117_lastrank_counts`, `C117_push_fills`, `C117_vacuum_infinity` in `Props/Empties.lean`  
*Proof:* The values of a line that are not NaN are a permutation (with the order kept: the same list) of those of the longer line; every statistic is shown to depend on those only; induction over the chain of calls; `morph` from C13, `align` from C16 and C17, `vacuum` from C39, the operators from C09.  
*Scope:* any, all, ranking with the other norms, lastrank, push and the moving statistics do count empty labels, and vacuum drops infinities (C117_any_counts_nan, C117_ranking_counts, C117_lastrank_counts, C117_push_fills, C117_vacuum_infinity); quantile is stated along an axis with at most as many bins as the smaller larry has labels, the root behind std maps NaN to NaN, power is with a positive integer exponent.

### C118 Whole numbers count as floats

*Model:* Nothing new; `SameNums` says of two larrys, by their labels and cells, that they have the same numbers in the same cells.  
*Theorems (proved):* `C118_reductions`, `C118_prod`, `C118_normalizing`, `C118_groups`, `C118_push`, `C118_running`, `C118_windows`, `C118_elementwise`, `C118_operators`, `C118_right`, `C118_left`, `C118_formula`, `C118_floordiv_zero`, `C118_python2`, `C118_bools`, `C118_empty` in `Props/Kinds.lean`  
*Proof:* Every reduction of a line is shown to depend on the numbers in it alone (products and running products of ints via casts to the rationals); the methods that work line by line follow; the elementwise methods and operators from the specifications of C72, C74 and C95, in which the dtype enters only in the named cases; formulas by induction, with the invariant that bool results are bool for both.  
*Scope:* Ints are unbounded in the model, so int overflow, which floats do not have, is outside it, and so is the rounding of large ints to floats. clip is not covered: it casts its bounds to the dtype of the larry.

### C119 The laws of algebra hold for larrys

*Model:* Nothing new; `Value` gives the value of an expression for rational numbers, independently of the model.  
*Theorems (proved):* `C119_fewer`, `C119_law`, `C119_polynomial`, `C119_distributive`, `C119_squares`, `C119_add_sub`, `C119_mul_div`, `C119_infinity` in `Props/Algebra.lean`  
*Proof:* By induction over the expression its cells have the value of the expression where all larrys are finite and NaN where one is NaN; labels, success and cells from C95.  
*Scope:* Numbers are exact: the rounding of floats, which breaks these laws in the last digit, is outside the model. Bool larrys, whose arithmetic is logic, are excluded.

### C120 Where a result is missing depends only on what is missing

*Model:* Nothing new.  
*Theorems (proved):* `C120_step`, `C120_program`, `C120_blank`, `C120_reductions`, `C120_ismissing`, `C120_elementwise`, `C120_division`, `C120_zscore`, `C120_ddof` in `Props/Gaps.lean`  
*Proof:* The relation 'both numbers or both NaN' is kept by every call: by C73's relation for moves, arithmetic, merge and reductions, by induction over the line (with the running state for moving windows) for the methods along an axis, by equality of the arrays of finite flags for vacuum and cut_missing; then by induction over the program. Counterexamples for the excluded calls.  
*Scope:* Floats are exact numbers, so that sums and products do not overflow to infinity. The functions that are parameters of the model are assumed to give a number for a number (square root of a number not below zero, ndtri between 0 and 1) and NaN for NaN; argsort sorts.

### C121 More data never makes a result missing

*Model:* Nothing new.  
*Theorems (proved):* `C121_step`, `C121_program`, `C121_reductions`, `C121_elementwise`, `C121_ddof`, `C121_division`, `C121_merge` in `Props/MoreData.lean`  
*Proof:* The relation 'no infinities, and a number wherever the first has one' is kept by every call: that results are numbers or NaN comes from C120; that NaN on the second side means NaN on the first from the specifications of the statistics (C91, C104, C107, C50) on windows and lines, for push by induction with the age of the last number, for merge from its two sides; then by induction over the program. Counterexamples for the excluded calls.  
*Scope:* Floats are exact numbers, so that sums and products do not overflow to infinity. The functions that are parameters of the model are assumed to give a number for a number (square root of a number not below zero, ndtri between 0 and 1) and NaN for NaN; argsort sorts.

### C122 A negative skip of movingsum_forward counts from the end, or raises

*Model:* NegSkip.lean: movingsum for any integer skip: slice bounds, the subtraction and the assignments with numpy's broadcasting of length one and its ValueError.  
*Theorems (proved):* `C122_refines`, `C122_from_the_end`, `C122_windows`, `C122_errors`, `C122_corner` in `Props/NegSkip.lean`  
*Proof:* The slices for -n <= skip <= -window are those for n + skip, so that the two programs agree line by line; in the other cases the lengths of the slices decide. The sums are those of C51. Examples show each case.  
*Scope:* Whether numpy raises is decided on the lengths of the slices, as numpy does. Floats are exact numbers. Larrys of strings and objects are left to the note of C51.

### C123 Group means and medians stay among the group, and subtracting them makes a larry group neutral

*Model:* Nothing new.  
*Theorems (proved):* `C123_between`, `C123_missing`, `C123_missing_ranking`, `C123_grows`, `C123_neutral`, `C123_infinity` in `Props/GroupStats.lean`  
*Proof:* The value at a label is the centre of the line of the part of the larry that holds its group (C102). The minimum and maximum of that line bound it, and it grows with the line (C104); it moves with the values (C83, C115), so that after subtracting the centre q of the line the new centre is q - q. The parts of the larry and of the difference are compared line by line.  
*Scope:* Floats are exact numbers, so that a mean that is zero is exactly zero. With an infinity in the group the mean is infinite and the difference NaN (C123_infinity).

### C124 Stacked larrys come apart again, and a stack agrees with la.add, la.multiply, merge and panel

*Model:* Nothing new: `stack` (C62), `pull` and `insertaxis` (C31), `morph_like` (C15), the reductions (C42, C44, C91), `la.add` and `la.multiply` (C96), `merge` (C98), `panel` (C30).  
*Theorems (proved):* `C124_page`, `C124_roundtrip`, `C124_statistics`, `C124_add`, `C124_multiply`, `C124_merge`, `C124_panel`, `C124_unsorted`, `C124_infinity` in `Props/Layers.lean`  
*Proof:* A cell of the stack is the `Layer` of its keyword (C62 in one clause); the line along the keywords is the list of layers. The finite numbers of that line are a permutation of the numbers of all larrys under the names, which is what C96 totals. The pages with an inserted axis do not overlap because the keywords differ, so C98 gives the merged cells. Labels are compared as sets and then, if sorted, as lists.  
*Scope:* Floats are exact numbers, so that sums and products do not depend on the order. Labels of the keywords and of the rows and columns are of one ordered type.

### C125 Larrys in for loops, with in, in conditions, chained comparisons, max, min and lists

*Model:* `SeqLoop`, `SeqFind`, `unpackItems`, `Outcome.bool`, `Larry.between`, `Larry.best`, `Larry.listIndex`, `Larry.listCount` (Verif/Protocol.lean): Python's rules for an object with `__getitem__` and comparisons only, on top of the model of `__getitem__` (C33) and of the operators (C113)  
*Theorems (proved):* `C125_loop`, `C125_unpack`, `C125_in_values`, `C125_in_rows`, `C125_in_larry`, `C125_condition`, `C125_between`, `C125_between_larrys`, `C125_max`, `C125_index`, `C125_in_line`, `C125_in_table` in `Props/Protocol.lean`  
*Proof:* `y[k]` is characterised by C33; the loop and the search are big-step relations, shown to have exactly one outcome by induction on their derivations; the other clauses follow from C113, C11 and induction over the lists. `C125_in_table` and the examples show the surprising answers  
*Scope:* Python's loop, membership test, unpacking, truth test, chained comparison, max/min and list.index/count are modelled on top of __getitem__ and the comparisons; objects looked for are Python numbers and larrys.

### C126 Arithmetic with larrys of Python objects

*Model:* `objBinop`, `objRight`, `objNeg`, `objLeft` (Verif/ObjectArith.lean): the bodies of the operators over numpy's loop for dtype object, with Python's operators on two objects as a parameter that may raise  
*Theorems (proved):* `C126_larrys`, `C126_ndim`, `C126_right`, `C126_neg`, `C126_left`, `C126_left_sound`, `C126_strings`, `C126_dates` in `Props/ObjectArith.lean`  
*Proof:* an array of results is collected (first exception in C order); cells are identified with labels by the alignment lemmas of C09 and the broadcasting lemmas of C12; `C126_left_sound` gives the algebraic conditions under which the reflected methods are right, `C126_strings` and `C126_dates` cases where they are not  
*Scope:* Python's operators on objects are a parameter; numpy's object loop is modelled as calling them element by element and letting the first exception through.

### C127 The statistics agree with one another

*Model:* no new code: `sum`, `mean`, `var`, `median`, `max`, `min`, `any`, `all` (C91), the elementwise methods (C72) and the operators (C09)  
*Theorems (proved):* `C127_mean`, `C127_var`, `C127_add`, `C127_neg`, `C127_any_all`, `C127_missing`, `C127_add_gaps`, `C127_add_bool` in `Props/Identities.lean`  
*Proof:* three calls are laid side by side line by line (`compare3_reduce`), which leaves a statement about lists of numbers proved by induction; `C127_add_gaps` and `C127_add_bool` show that the conditions of (3) are needed  
*Scope:* Numbers are exact rationals with NaN and infinities, so rounding is not part of the claim.

### C128 The statistics of two parts give that of the whole

*Model:* no new code: the reductions of C91 and the methods that pick labels of C92  
*Theorems (proved):* `C128_median`, `C128_count`, `C128_parts` in `Props/ChunkMedian.lean`, `Props/Chunks.lean`  
*Proof:* the line (or all elements) of the whole is a permutation of the lines of the parts (`two_parts_line`, `parts_vals`), and the functions of bottleneck are described on permuted and appended lists (`pool_sum`, `pool_mean`, `pool_max`, `pool_min`, `pool_any`, `pool_all`); for medians, the number in the middle of a sorted list is compared by counting the smaller and the larger numbers (`sorted_ge`, `sorted_le`, `middle_between`)  
*Scope:* Exact rational arithmetic; rounding is not part of the claim.

### C129 Covariance, variance and correlation agree

*Model:* no new code: `cov` (C67), `demean` (C52), `var` (C91), `correlation` (C69)  
*Theorems (proved):* `C129_diagonal`, `C129_moments`, `C129_bound`, `C129_correlation` in `Props/Covariance.lean`  
*Proof:* `demean(1)` of a table of numbers is the table less the row means (`demean_table`), so `cov` is described by the original numbers (`cov_demeaned`); the sums are expanded; the bound is the discriminant of a sum of squares (`cauchy_list`); rationals are cast to reals for the roots  
*Scope:* Exact arithmetic (rational, real for the roots); rounding is not part of the claim. var divides by the number of values (ddof=0), as cov does.

### C130 Normalised larrys are centred

*Model:* `ranking`, `demean`, `demedian`, `zscore`, `groupRanking`, followed by the reductions of Verif/Stats.lean  
*Theorems (proved):* `C130_ranking`, `C130_ranking_n1`, `C130_centred`, `C130_zscore`, `C130_group_ranking`, `C130_gaussian_ties` in `Props/Neutral.lean`  
*Proof:* Double counting: over all values of a line, as many are below as above, so the ranks average to the middle (`rank_sum`). Demeaned and z-scored lines are the line in other units, through which mean, median and variance move (C83). Groups by C102.  
*Scope:* Over exact rationals; the square root is a parameter, so zscore is settled on lines whose standard deviation is rational. C130_gaussian_ties is the witness for the last sentence.

### C131 Standard deviations and z-scores are the textbook ones, over the real numbers

*Model:* `bn.nanstd`, `demean` and `zscore` of la/farray/normalize.py over the reals with NaN and infinities, with the broadcast of the reduced array (Verif/RealScore.lean)  
*Theorems (proved):* `C131_std`, `C131_zscore`, `C131_axis`, `C131_unique`, `C131_std_unique`, `C131_std_zero`, `C131_std_units`, `C131_order`, `C131_units`, `C131_negative`, `C131_again`, `C131_bounds`, `C131_correlation`, `C131_ddof` in `Props/RealScore.lean`  
*Proof:* A line becomes its list of numbers; level and unit of z-scores are solved for from the two sums, which gives uniqueness and with it the invariances; the bound is Cauchy-Schwarz with one number left out; correlation through C69.  
*Scope:* On the arrays, with exact real arithmetic and the real square root; the labels are the subject of C52 and C44. Infinite elements are excluded.

### C132 Logarithms turn products into sums, and back

*Model:* `log`, `exp`, `sqrt`, `sum`, `prod`, `mean`, `cumsum`, `cumprod` of the arrays over the reals with NaN and infinities (Verif/RealLog.lean)  
*Theorems (proved):* `C132_inverse`, `C132_elements`, `C132_sqrt`, `C132_sum`, `C132_mean`, `C132_cumsum`, `C132_prod`, `C132_running`, `C132_negative` in `Props/RealLog.lean`  
*Proof:* `exp` takes addition of floats to multiplication, infinities and NaN included, and is one-to-one onto the floats that are not negative; sums and products are the same fold on both sides.  
*Scope:* On the arrays of float larrys with exact real arithmetic; the labels are the subject of other properties. C132_negative is the witness for the last sentence.

### C133 The methods of a larry compute what the functions of its array compute

*Model:* both models: `mean`, `sum`, `prod`, `var`, `std`, `demean`, `zscore`, `cumsum`, `cumprod` of larrys with rational numbers and of arrays with real numbers  
*Theorems (proved):* `C133_reductions`, `C133_std`, `C133_prod`, `C133_demean`, `C133_zscore`, `C133_running` in `Props/RealAgree.lean`  
*Proof:* The embedding of the rational floats in the real ones commutes with the arithmetic, infinities included, hence with folds over lines; lines of the larry are lines of its array.  
*Scope:* Links the rational model of larrys (Verif/Stats.lean, Verif/Kernel.lean) to the real one of arrays (Verif/RealScore.lean, Verif/RealLog.lean), so that C131 and C132 speak about the methods. The square root is a parameter of the rational model; std and zscore are compared where it is exact.

### C134 Mean and median are the nearest numbers, and how far apart they can be

*Model:* `mean`, `median` and `var` of larrys (Verif/Stats.lean)  
*Theorems (proved):* `C134_mean`, `C134_median`, `C134_var`, `C134_range`, `C134_tail`, `C134_near` in `Props/Nearest.lean`  
*Proof:* From C91: the sum of squares about any number is that about the mean plus n times the squared difference; moving away from the median loses a step for at most half of the numbers; Cauchy's inequality by induction over the line.  
*Scope:* Numbers are rationals, as everywhere in the model of larrys. bn.nanmean, bn.nanmedian and bn.nanvar are modelled, not assumed to satisfy this.

### C135 Group means split the variance

*Model:* `group_mean` (Verif/Group.lean), subtraction (Verif/Arith.lean), `mean` and `var` (Verif/Stats.lean)  
*Theorems (proved):* `C135_split`, `C135_missing` in `Props/GroupSplit.lean`  
*Proof:* C53 gives the group means of a line; weights that are constant on the groups give numbers and group means the same weighted sum (exchange of sums), used with weight 1 and with the group mean itself; C91 turns the sums into mean and var.  
*Scope:* Numbers are rationals, as everywhere in the model of larrys. C135_missing shows that the condition on missing elements is needed.

## 4. Findings about the code

Where a property as a user would first put it is false of the code, the statement in `properties.jsonl`
was changed to what holds, and the failure is itself a theorem where the model can express it.

1. `align_axis` looks up `axis[i]` where `axis[i+1]` is meant for inner and outer joins
   (la/flarry.py:506-510), so it can align with the wrong axis of a larry (`C18_wrong_axis`).
2. `merge` of two larrys with identical labels writes into `self.x` (la/deflarry.py:3463-3503,
   `C23_merge_writes`).  Its second mask takes the marker of `self.dtype` (3486).  Sized string dtypes pass
   the dtype check.  The final `putmask` can raise TypeError.
3. `binaryop` with `missone`/`misstwo` writes the fill into the arguments when they are already aligned
   (la/flarry.py:766-788, `C23_binaryop_writes`).  With `join='skip'` the result has a label `None`.
4. A tuple index with a list that is not next to the integers gives mislabelled values, because numpy moves
   the list's axis to the front (`C33_scrambled`).  A tuple of integers shorter than ndim returns a bare
   array.
5. `larry + ndarray` with a larger broadcast shape gives a larry whose labels do not fit
   (`C12_broadcast_breaks`).
6. `squeeze` of a larry with only axes of length 1 gives a 0d larry, which no other method supports (C32).
7. `vacuum(axis=-1)` does what `vacuum(None)` does.  The `axis` argument names the axes *not* vacuumed.
   `cut_missing(axis=None)` cuts nothing.
8. `align` with outer, left or right join raises IndexError when an axis is empty and has to be extended (C16).
9. `morph` to a different empty list turns an int or bool larry into a float one (C13).
10. Archive: assigning to an existing key that contains a slash raises RuntimeError (`C56_nested_overwrite`).
    A failed assignment deletes the old larry and leaves the key unusable (`C56_failed_set`, `C56_brick`).
    Deleting `'a'` deletes `'a/b'`.  `clear` raises KeyError with nested keys (`C59_nested`).
    `'/a' in io` is False though `io['/a']` works.  tzinfo and trailing NULs of string labels are lost (C57).
11. `repack` loses a larry archived at `/` (`C58_root`), destroys a file that happens to carry the temporary name
    (`C58_clobbers`), and has a window between the two renames in which the file has only its temporary name.
12. `lara`: list indices raise AttributeError because the class has no `take`/`copylabel` (`C60_list`); negative
    list entries are mislabelled (`C60_negative`); a lara opened before the archive changed keeps the old labels
    (`C60_stale`).
13. `cumsum`/`cumprod` keep NaN at NaN positions (the docstring suggests NaN counts as 0).  `push` replaces infinities.
    `lastrank` of a line with −inf can leave [−1, 1].  `quantile(q=1)` gives 0 for infinities.
14. `labelindex(exact=False)` returns the largest position whose label is not greater, not the nearest label,
    unless the axis is sorted (C41).
15. `keep_label` that keeps nothing returns `larry([])`, of another ndim.
16. `pull` on a larry of shape (1, 1) returns a scalar.  `pull` from a 1d larry raises ValueError.
17. `unflatten` of a bool or string larry raises NotImplementedError; round trips sort the labels and give floats (C29).
18. `bootstrap` index pairs with repeated entries are rejected by `take`, so `split` of a larry on them always raises (`C65_bootstrap`).
19. `maplabel` with a function that is not injective on an axis gives duplicate labels without an error (`C64_unfair`).
20. `__reduce` on an int larry of size 0 with axes left and NaN default raises ValueError; a bool larry gets True (C42).
21. `larry.move_func` drops its keyword arguments (la/deflarry.py:3057).
22. `__setitem__` with a larry mask does not check that the mask is bool (`C37_mask_int`).
23. `__getitem__`, `pull` and `squeeze` share label lists with the original in the cases listed by `C23_getitem`,
    `C23_pull`, `C23_squeeze`; `shufflelabel` on such a result also changes the original (`C23_shared_labels`).
24. `sortaxis()` of a 0d larry returns the larry itself.  `fromcsv` uses `reader.next`, which Python 3 lacks.
25. `stack('intersection')` of nothing raises IndexError.
26. `__rsub__` is `-(lar - other)` (la/deflarry.py:735-737).  For a bool minus a bool larry that is the negation of the right
    answer everywhere (`C74_bool_minus_larry`, `C74_bool_minus_larry_wrong`).
27. `__truediv__` and `__rtruediv__` use `/` in a module that does not import `division`, so under Python 2 true division
    of int larrys rounds down (`C74_truediv_python2`); the docstring shows 2. for it.
28. Sums that mix bool larrys with numbers depend on the parentheses (`C75_mixed_bools`).
29. `tocsv` followed by `fromcsv`: under Python 3 labels that contain a carriage return are changed and may collide
    (`C76_line_breaks_lost`), because the file is read with universal newlines; labels of one axis with the same text
    collide (`C76_same_text_lost`); a bool larry cannot be read back (`C76_bool`); a larry without elements loses its
    shape (`C76_empty`).
30. `lrange`, `empty`, `ones` and `zeros` ignore `shape` when labels are given, even if it contradicts them
    (`C77_shape_ignored`); `rand` and `randn` raise ValueError (`C77_rand`).  The default dtype of `lrange` is int, not
    float64 as documented.
31. `tofile` does not quote: a delimiter or line break inside a label or value spoils the table
    (`C79_delimiter_in_label`); the header of a larry with no columns reads as one column with an empty label
    (`C79_no_columns`); the number of dimensions cannot be told from the file (`C79_dimensions_lost`).
32. With both infinities in a larry, `y.sum(1).sum()` can be a number while `y.sum()` is NaN: the NaN that
    `inf - inf` gives for a row counts as missing in the second sum (`C84_sum_infinities`).
33. The documentation of `lastrank` (la/deflarry.py:1590-1593) says that it is a slice of `ranking`.  A line with a
    single value gives NaN in one and 0 in the other, and infinities are counted by `ranking` only (`C85_doc_claim`).
34. `assert_iscopy` compares lists of labels at the same axis only (la/util/testing.py:220-222): lists shared along
    different axes pass (`C87_iscopy_axes`).  `noreference` (la/util/testing.py:270) asks whether the arrays are one object,
    so a view passes as a copy (`C87_noreference`).
35. A printed axis of seven labels with the label `...` in the middle looks like a longer axis (`C88_dots`).
36. `indent` (la/external/prettytable.py:31, 35) uses `map(None, ...)`: under Python 3 it always raises, and with it
    `IO.__repr__` and `la.info` (`C89_python3`, `C89_listing_python3`).  Under Python 2 a table of one column is taken apart
    (`C89_one_column`) and the separator of a table of one line, such as the listing of an empty archive, is too short
    (`C89_one_line`, `C89_empty`).
37. `wrap_onspace_strict` does not enforce the width if the text contains tabs (`C90_tab`).
38. A quote that is never closed makes `fromcsv` read the rest of the file as one field, without an exception from the reader (`C76_unclosed_quote`).
39. A larry can never be assigned through a lara: `self[index]` in `larry.__setitem__` (la/deflarry.py:2120) is `lara.__getitem__`,
    which resets `self.x` to None (la/io.py:336), so that an aligned larry gives TypeError (`C93_larry`, `C93_larry_aligned`).
40. A lara keeps the labels it was made with: after the key is overwritten with the labels in another order, an assignment
    with a boolean larry goes to the wrong labels (`C93_stale`).
41. `y.lix[names, :]` keeps the caller's list `names` as a label list of the result (la/deflarry.py:5051-5052): a later
    `names.reverse()` exchanges the names of the rows of the result without moving the data (`C99_lix_list_kept`).
42. `lrange`, `ones`, `zeros` and `empty` keep the `label` given (la/flarry.py:1852, 1934): `z = la.zeros(label=y.label)` has
    its labels in common with `y`, and `z.maplabel(f, copy=False)` maps the labels of `y` too (`C99_create_shared`).
43. `keep_label` that keeps nothing returns `larry([])`, one-dimensional and of dtype float, whatever the dimension and dtype
    of the larry (la/deflarry.py:2474-2475): a following call on the other axis raises IndexError or means another axis,
    though in the opposite order both calls return (`C100_keep_nothing`).
44. The docstring of `unique` gets the different values back with `lar[indices]` (la/flarry.py:1320). The positions count along
    the flattened data, so for a larry with more than one axis this selects whole rows or raises IndexError
    (`C101_index_is_flat`). NaNs are not merged: each cell holding NaN gives its own entry.
45. Files stay open when a function of la/io.py raises between opening and closing (no `try`/`finally`): `io['none']` leaves the
    archive open for reading, and until the file object is freed every `save`, `delete`, `io[key] = y` and `lara[...] = v` by name
    raises (`C103_missing_key_locks`, `C103_locked`). `io[key] = y` whose deletion raises leaves two. A misspelt file name
    given to `load`, `delete`, `len(io)` or `key in io` makes an empty archive; `io[key]` raises IOError instead (`C103_misspelt`).
46. `var` and `std` with `ddof` larger than the number of values that are not NaN give a negative variance (a NaN `std`) without a
    warning: `larry([0., 2.]).var(ddof=3)` is -2 (`C104_negative_variance`).
47. `maplabel(func, copy=False)` with a function that raises on a label of a later axis leaves the labels of the earlier axes mapped
    (`C105_maplabel_partway`, `C105_maplabel_half`); with an axis, or with a copy, nothing changes.
48. `binaryop` with `missone` or `misstwo` and a function that raises leaves the fills in arguments that needed no realigning
    (`C105_binaryop_writes`).
49. With missing data the matrix `cov` returns need not be positive semidefinite, each element being the mean over the pairs present
    (`C67_indefinite`: rows [2, 2, 0, 0] and [2, 2, NaN, NaN]).
50. `lag` accepts a negative `nlag` and then brings later values to earlier labels (`C106_lag_ahead`); `movingsum_forward`, and
    `ranking` and `demean` along the time axis, do so by design (`C106_movingsum_forward_ahead`, `C106_ranking_ahead`,
    `C106_demean_ahead`); `vacuum` drops a column by what stands in it on later days (`C106_vacuum_ahead`).
51. `move_sum` and `move_mean` (la/deflarry.py:2737, 2772) keep a running sum: an infinity that leaves the window is subtracted from an infinite sum, which gives NaN, and NaN stays for the rest of the line. `move_func(bn.nansum, ...)` on the same data is finite again once the infinity has left (`C107_sum`, `C107_spoilt`).
52. `pull` (la/deflarry.py:2365-2366) returns a number instead of a larry if one element is left, so a program that pulls a series out of a panel gets a number on the first day and a larry from the second day on (`C108_pull_changes`).
53. A binary operation keeps the order of the labels if both larrys have the same ones, and sorts them if not (la/deflarry.py:1055-1059): as soon as one of them gets a label more, the labels that were there before come out in another order (`C108_sum_changes`). Reductions of empty data keep the dtype of the data (1472-1475), others do not (`C108_mean_changes`).
54. `y - y.lag(1)` joins two different lists of labels and so sorts them (la/deflarry.py:1055-1059); for labels that are not ascending `(y - y.lag(1)).cumsum()` adds the differences in another order than they were taken (`C109_unsorted`).
55. A list of bools is taken for the positions 0 and 1 (la/deflarry.py:1839-1843): `y[[True, False]]` reverses two rows instead of selecting one, although an array of bools is a mask (`C111_two_bools`, `C111_list_of_bools`). `np.uint8(1)` and `np.bool_` are refused as an index (`C111_refused`), a float is taken (`C111_getitem`), except in a tuple given to `lix` (`C111_lix_float`).
56. `clip` writes its result into a copy of the data, so an int larry clipped with bounds that are not whole gets the
    nearest point truncated toward zero: `larry([1, 2]).clip(1.5, 3)` still holds `1`, below the lower bound
    (`C45_int_below`; la/deflarry.py:424-462).
57. The docstring of `la.morph_like`/`larry.morph_like` shows floats for int data whose labels are all present; the code
    keeps ints (la/deflarry.py:3363-3419). The docstring is stale, the model follows the code.
58. `quantile(q, None)` of equal values depends on the order of the axes: ties are broken by the place in the array (`C112_quantile_none`).
59. `lar == None` and `lar != None` raise TypeError, while a list is compared but not added: `lar < [1, 2]` works and `lar + [1, 2]` raises TypeError (`C113_refused`, `C113_right`).
60. `lar == array` of a shape that cannot be broadcast returns the bool False, not a larry, so a following `.all()` raises AttributeError (`C113_unmatched`).
61. `assert_larry_equal('a', 'b')` raises TypeError and `assert_larry_equal(None, None)` raises AttributeError, neither an AssertionError nor a pass (`C114_scalars`, `C114_other`).
62. `set`, indexing assignment, `lix` assignment and `fill` silently truncate numbers assigned to an int larry: `larry([1, 2]).set([0], 2.75)` leaves 2 (`C116_truncates`).
63. `keep_x` of a bool larry turns the values that fail the comparison into True (`C38_keep_x_bool`); of an int larry it raises ValueError (`C38_keep_x_errors`).
64. Padding with NaN is not harmless everywhere: `any` and `all` count NaN as True, `ranking` with norm `'0,N-1'` (and `'gaussian'`) scales by the number of positions and not of values, `lastrank` is NaN if an empty label is last (`C117_any_counts_nan`, `C117_ranking_counts`, `C117_lastrank_counts`); and `vacuum` drops a label whose values are all infinite (`C117_vacuum_infinity`).
65. The dtype of whole numbers shows in four places: `//` by zero gives 0 for an int larry and inf or NaN for a float larry (`C118_floordiv_zero`); the `/` of Python 2 rounds ints down (`C118_python2`); `y + y` of a bool larry is bool (`C118_bools`); and `sum` along an axis of a larry with no elements raises ValueError for ints but gives NaN for floats (`C118_empty`).
66. `zscore` of equal numbers is NaN, and `var`/`std` with `ddof` equal to the number of values is NaN or infinite
    depending on whether the values are equal: NaN in these results does not mean that something was missing (C120).
67. `movingsum` documents that `skip` cannot be negative but does not check it (la/farray/move.py:287-292).  A skip from `-n` to
    `-window` silently counts from the end of the axis; with `window == n` a skip of `-n-1` gives the total of the line
    twice; the others raise ValueError from inside numpy (C122).
68. `stack` sorts the row and column labels even if all larrys have the same ones, where `align`, `la.add` and `merge` keep
    identical labels in their order (`C124_unsorted`); and `merge` loses the infinite numbers of its argument, `stack` does not
    (`C124_infinity`).
69. A larry is true in every condition (no `__nonzero__`/`__bool__`, no `__len__`; numpy arrays raise ValueError instead). So `5 in y` is True for any larry of two or more axes with a row, `if y == z:` is always taken, `0 < y < 1` silently drops the first comparison, `max(y, z)` and `min(y, z)` are both `z`, and `lars.index(z)` is 0 (`C125_in_table`, `C125_condition`, `C125_between`, `C125_max`, `C125_index`).
70. `__radd__ = __add__` and `__rmul__ = __mul__` assume that objects commute, and `__rsub__` that `w - v` is `-(v - w)`: `'a' + y` for an object larry of strings appends the `'a'` (`C126_strings`), and an array of dates minus a larry of time spans raises TypeError (`C126_dates`).
71. `log` makes NaN of a negative element, and sums and means then skip it as if it were missing: `exp(log(y).sum())` of 2 and -3 is 2 (`C132_negative`).

## 5. Simplifications and what is not modelled

* Floating-point rounding, integer overflow, complex numbers, structured dtypes, masked arrays, string lengths
  in dtypes (a string dtype is one dtype).
* Labels that are not hashable, or do not compare by a linear order.  Label containers other than lists.
* Messages of exceptions; only the class is modelled.  Warnings are not.
* Bool lists inside a tuple index, float indices, ellipsis, `newaxis`.
* The model's `take` always checks indices against the axis.
* The TypeError `group_*` raises for mixed types under Python 3.
* `stack` of string or object larrys is modelled as ValueError.
* h5py: files are trees of groups and datasets with attributes; names with leading or repeated slashes and `.` are
  normalised; object arrays are refused with TypeError; selections are orthogonal.  Compression, chunking, the size of
  files (`space`, `freespace`) and concurrent access are not modelled.
* csv files: the default dialect of Python's `csv` module; the conversions `str`, `repr` and `float` are parameters; encodings
  are not modelled.
* The file system: atomic `rename`, `remove`; the content of a file that is open for writing is arbitrary
  until it is closed.
* Heap: numpy basic indexing, `swapaxes`, `T`, `squeeze` give views, all other array operations give new buffers.
  unflatten, the tuple/list/dict constructors, rand, randn and `unique` are not in the heap model; `lix[...] = ...` is
  there only as a write (`inPlace`).  `putmask` in merge on arrays that overlap in memory without being the
  same array is not modelled.
* Not modelled at all: the web requests and IOError in
  la/external/matplotlib.py, la/util/report.py, the C file generated by Cython, `printfail` in
  la/util/testing.py.

## 6. Testing the theorems

`seeded/LOG.jsonl` has one line per wrong program: a definition of the model was edited in a scratch copy, the
project rebuilt, and the theorems that no longer prove recorded.  `own_proof_failed` and `lemmas_failed` list the
supporting results that failed first.  A theorem that still proved although its claim had become false was
tightened, and the line says so.
