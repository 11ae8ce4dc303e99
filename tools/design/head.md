# Formal model of chrisspalm/la in Lean 4 — design

`lean/` is a Lake project (Lean 4.33.0, Mathlib).  `properties.jsonl` lists the properties,
`MANIFEST.json` names the theorems that prove each of them, `seeded/LOG.jsonl` records the wrong
programs the theorems were tested against, and `tools/` holds two scripts (`mkmanifest.py` writes the
manifest, `seed.py` runs a round of wrong programs in a scratch copy).  The sections below give the
trusted base, the model, one entry per property, the findings about the code, and what is left out.

## 1. Trusted base

* **Lean's kernel** (4.33.0) and the compiled Mathlib it is given.
* **Axioms.**  Every theorem in the manifest depends on a subset of `propext`, `Classical.choice` and
  `Quot.sound`, the three standard axioms.  The project declares no axiom and uses no `sorry`, `admit`,
  `native_decide` or `bv_decide`.  Concrete examples are closed with `decide`, `decide +kernel`, `rfl` or
  `norm_num`; `decide +kernel` evaluates in the kernel and adds no axiom.
* **The reading of the Python source.**  Every definition that models code cites the file and lines in
  `/repo` it was read from.  That the definition says what those lines do is by inspection.  As a guard
  against slips, `Verif/Checks` evaluates the model on some 530 inputs taken from the project's own
  docstrings and unit tests and compares with the values written there; these are checks of the reading,
  not proofs of properties, and no property rests on them.
* **The models of the libraries.**  numpy, Bottleneck, h5py, the file system and the Python built-ins
  are modelled by hand (`Py.lean`, `Np.lean`, `Reduce.lean`, `Move.lean`, `IO.lean`, `Repack.lean`,
  `Lara.lean`, `Calendar.lean`, `Heap.lean`).  The versions meant are those of the commit's time:
  Python 2.7/3.x, NumPy 1.6/1.7, Bottleneck 0.7, h5py 2.x.
* **The specifications.**  `Spec.lean`, `SpecNum.lean` and the definitions at the head of each file in
  `Props/` are what a reader has to agree with; the remaining files are proofs the kernel checks.

## 2. The model

### Values, arrays, larrys

* `Val` is a numpy scalar: bool, int (ℤ), float, string, or an opaque object/date.  `Flt` is an exact
  rational, NaN, +inf or −inf.  Rounding, overflow, signed zeros and NaN payloads are not modelled.
* `NDArray α` is a shape and a total function from multi-indices (`List Nat`) to values.  Only positions
  inside the shape (`InB`) mean anything: equality of arrays (`NDArray.Same`) looks only there.  Every
  primitive that numpy checks for bounds is checked in the model.
* Exceptions are values: `Res α = Except PyErr α`, with the exception class as the error.
* `Larry L` is an array of `Val`, a dtype and a list of label lists, over a label type `L`.  Most theorems
  hold for every linearly ordered `L`, some for every type with decidable equality.  Labels that compare
  inconsistently (NaN labels, mixed types under Python 3) are therefore outside the model.
* Mutation: most methods are modelled as functions from larrys to larrys.  Which objects, buffers and
  label lists are shared or written is the subject of a second model (`Heap.lean`), whose operations are
  proved to compute the same values as the first (`C23_values`).

### Specification vocabulary

A larry stands for a partial map from label tuples to values.  `At label idx names` says that position
`idx` carries the labels `names`; `Holds`, `Named`, `NamedExcept` are the variants for whole axes.  None of
them uses the model's lookup functions.  `get` is proved to compute this map (C07), and properties about
labels are stated through labels, shape, dtype and this map.  `Larry.Valid` is the invariant the
constructor checks: one label list per axis, of the axis's length, without duplicates.  `Larry.Typed` says
that every element belongs to the dtype.

### Parameters instead of models

Where la calls a numeric library whose arithmetic is not the subject, the function is a parameter of the
model and theorems quantify over it, sometimes under its documented contract:

| parameter | contract used |
|---|---|
| elementwise operators and functions | none |
| Bottleneck/numpy reductions (`Red`) | none, or a stated result on lines of numbers |
| casts on assignment (`conv`) | none |
| `argsort` | returns a sorting permutation |
| `bn.nanstd`, `bn.nanmedian` | stated in the theorem (for example `s * s` = mean square); `nanstd` is computed in C131 |
| `ndtri` | none; it is proved to receive a probability strictly between 0 and 1 |
| `np.random.shuffle`, `randint` | returns a permutation; any stream of draws |
| iteration order of `set` and `dict` | any permutation |

### Files

| Lean module | code modelled |
|---|---|
| `Flabel` | la/flabel.py, the loops of la/src/cflabel.pyx |
| `Np`, `Py`, `Flt` | numpy indexing, take, putmask, transpose, squeeze …; Python lists, slices, errors; floats |
| `Larry` | constructor, get/set, labelindex, operators, comparisons, morph, morph_like (la/deflarry.py) |
| `Flarry` | align_raw, align, align_axis, union, intersection, isaligned, merge, binaryop |
| `Methods` | sortaxis, flipaxis, lag, T, swapaxes, squeeze, insertaxis, pull, take, keep_label, maplabel |
| `Flatten` | flatten, unflatten, totuples/fromtuples, tolist/fromlist, todict/fromdict, panel |
| `Reduce` | `__reduce`, sum … all, prod, keep_x, vacuum, cut_missing, ismissing |
| `Kernel` | cumsum, cumprod, clip, push, lastrank, ranking, quantile, demean, demedian, zscore, movingsum |
| `NegSkip` | movingsum for any skip, with numpy's checks of shapes |
| `Group`, `Move` | la/farray/group.py, la/farray/move.py (with memory and strides) |
| `Index`, `Setitem`, `Lix` | `__getitem__`, `__setitem__`, `lix` |
| `Objects` | `isint`, `isfloat`, `isscalar`, `isstring`; which index an object is taken for |
| `Operand` | the operators by the type of the other operand; reflected methods |
| `Protocol` | larrys in `for`, `in`, conditions, chained comparisons, `max`, `min`, `list.index`: Python's rules for an object with `__getitem__` and comparisons only |
| `ObjectArith` | the arithmetic operators on larrys of dtype object, for any behaviour of Python's operators on the objects |
| `TestingAny` | `assert_larry_equal` of any two objects; its message |
| `Store` | assignment of values of another type than the dtype of the larry |
| `Resample`, `Stack` | la/util/resample.py, `stack`, `sortby` |
| `History` | a program of method calls |
| `IO`, `Calendar`, `Repack`, `Lara` | la/io.py: archives, dates, repack, lazy larrys |
| `Spec`, `SpecNum` | nothing: the vocabulary the theorems are stated with |
| `ReduceMethods`, `Stats` | sum, max, min, any, all; mean, median, var, std spelled out on exact numbers |
| `RealStats` | geometric_mean and correlation (la/farray/misc.py) over the real numbers |
| `RealScore` | std, demean and zscore of arrays over the real numbers, with the true square root |
| `RealLog` | log, exp, sqrt, sum, prod, mean, cumsum and cumprod of arrays over the real numbers |
| `Moving`, `MoveBn` | move_median, move_ranking, move_func; move_sum, move_mean, move_std, move_min, move_max |
| `Cov`, `Unique`, `Queries` | covMissing and cov; unique; maxlabel, minlabel |
| `Elementwise`, `Arith`, `FlarryArith`, `Formula` | elementwise methods; arithmetic operators on numbers; la.add … la.divide; logical and comparison operators |
| `Create`, `Shuffle`, `MapTry` | lrange, empty, ones, zeros, rand, randn; shuffle, shufflelabel; maplabel with a function that may raise |
| `Csv`, `Tofile`, `Print`, `PrettyTable` | tocsv, fromcsv; tofile; `__repr__`; la/external/prettytable.py |
| `IOLoop`, `Files`, `LaraSet` | loops over archives; opening and closing of files; assignment through a lara |
| `Testing` | la/util/testing.py |
| `Yahoo` | la/data/yahoo.py and its parser in la/external/matplotlib.py |
| `HeapMore` | references for lix, flatten, panel, cov, align_axis, stack, sortby and the functions that create larrys |
| `Heap` | objects, buffers and label lists: copy, copyx, copylabel, methods that return views, in-place methods, merge, binaryop |
| `Checks/*` | nothing: values from the docstrings and tests, compared with the model |

The `…Facts`, `Calculus`, `Ravel`, `BinopFacts`, `MorphLike`, `HeapRun`, `HeapWrite`, `HeapView`, `HeapOwn`, `Before…`,
`Lookback…`, `Param…`, `Rename…`, `Reorder…` modules hold lemmas; `Examples` holds larrys for the examples;
`Props/` holds the theorems about the properties.

## 3. Properties

For each property: what is modelled, the theorems, and how they are proved.  Beside each theorem in
`Props/` an `example` shows a concrete larry that meets its hypotheses.

