## 4. Findings about the code

Where a property as a user would first put it is false of the code, the statement in `properties.jsonl`
was changed to what holds, and the failure is itself a theorem where the model can express it.

1. `align_axis` looks up `axis[i]` where `axis[i+1]` is meant for inner and outer joins
   (la/flarry.py:506-510), so it can align with the wrong axis of a larry (`C18_wrong_axis`).
2. `merge` of two larrys with identical labels writes into `self.x` (la/deflarry.py:3463-3503,
   `C23_merge_writes`).  Its second mask takes the marker of `self.dtype` (3486).  Sized string dtypes pass
   the dtype check.  The final `putmask` can raise TypeError.
3. `binaryop` with `missone`/`misstwo` writes the fill into the arguments when they are already aligned
   (la/flarry.py:766-788, `C23_binaryop_writes`).  With `join='skip'` the result has a label `None`.
4. A tuple index with a list that is not next to the integers gives mislabelled values, because numpy moves
   the list's axis to the front (`C33_scrambled`).  A tuple of integers shorter than ndim returns a bare
   array.
5. `larry + ndarray` with a larger broadcast shape gives a larry whose labels do not fit
   (`C12_broadcast_breaks`).
6. `squeeze` of a larry with only axes of length 1 gives a 0d larry, which no other method supports (C32).
7. `vacuum(axis=-1)` does what `vacuum(None)` does.  The `axis` argument names the axes *not* vacuumed.
   `cut_missing(axis=None)` cuts nothing.
8. `align` with outer, left or right join raises IndexError when an axis is empty and has to be extended (C16).
9. `morph` to a different empty list turns an int or bool larry into a float one (C13).
10. Archive: assigning to an existing key that contains a slash raises RuntimeError (`C56_nested_overwrite`).
    A failed assignment deletes the old larry and leaves the key unusable (`C56_failed_set`, `C56_brick`).
    Deleting `'a'` deletes `'a/b'`.  `clear` raises KeyError with nested keys (`C59_nested`).
    `'/a' in io` is False though `io['/a']` works.  tzinfo and trailing NULs of string labels are lost (C57).
11. `repack` loses a larry archived at `/` (`C58_root`), destroys a file that happens to carry the temporary name
    (`C58_clobbers`), and has a window between the two renames in which the file has only its temporary name.
12. `lara`: list indices raise AttributeError because the class has no `take`/`copylabel` (`C60_list`); negative
    list entries are mislabelled (`C60_negative`); a lara opened before the archive changed keeps the old labels
    (`C60_stale`).
13. `cumsum`/`cumprod` keep NaN at NaN positions (the docstring suggests NaN counts as 0).  `push` replaces infinities.
    `lastrank` of a line with −inf can leave [−1, 1].  `quantile(q=1)` gives 0 for infinities.
14. `labelindex(exact=False)` returns the largest position whose label is not greater, not the nearest label,
    unless the axis is sorted (C41).
15. `keep_label` that keeps nothing returns `larry([])`, of another ndim.
16. `pull` on a larry of shape (1, 1) returns a scalar.  `pull` from a 1d larry raises ValueError.
17. `unflatten` of a bool or string larry raises NotImplementedError; round trips sort the labels and give floats (C29).
18. `bootstrap` index pairs with repeated entries are rejected by `take`, so `split` of a larry on them always raises (`C65_bootstrap`).
19. `maplabel` with a function that is not injective on an axis gives duplicate labels without an error (`C64_unfair`).
20. `__reduce` on an int larry of size 0 with axes left and NaN default raises ValueError; a bool larry gets True (C42).
21. `larry.move_func` drops its keyword arguments (la/deflarry.py:3057).
22. `__setitem__` with a larry mask does not check that the mask is bool (`C37_mask_int`).
23. `__getitem__`, `pull` and `squeeze` share label lists with the original in the cases listed by `C23_getitem`,
    `C23_pull`, `C23_squeeze`; `shufflelabel` on such a result also changes the original (`C23_shared_labels`).
24. `sortaxis()` of a 0d larry returns the larry itself.  `fromcsv` uses `reader.next`, which Python 3 lacks.
25. `stack('intersection')` of nothing raises IndexError.
26. `__rsub__` is `-(lar - other)` (la/deflarry.py:735-737).  For a bool minus a bool larry that is the negation of the right
    answer everywhere (`C74_bool_minus_larry`, `C74_bool_minus_larry_wrong`).
27. `__truediv__` and `__rtruediv__` use `/` in a module that does not import `division`, so under Python 2 true division
    of int larrys rounds down (`C74_truediv_python2`); the docstring shows 2. for it.
28. Sums that mix bool larrys with numbers depend on the parentheses (`C75_mixed_bools`).
29. `tocsv` followed by `fromcsv`: under Python 3 labels that contain a carriage return are changed and may collide
    (`C76_line_breaks_lost`), because the file is read with universal newlines; labels of one axis with the same text
    collide (`C76_same_text_lost`); a bool larry cannot be read back (`C76_bool`); a larry without elements loses its
    shape (`C76_empty`).
30. `lrange`, `empty`, `ones` and `zeros` ignore `shape` when labels are given, even if it contradicts them
    (`C77_shape_ignored`); `rand` and `randn` raise ValueError (`C77_rand`).  The default dtype of `lrange` is int, not
    float64 as documented.
31. `tofile` does not quote: a delimiter or line break inside a label or value spoils the table
    (`C79_delimiter_in_label`); the header of a larry with no columns reads as one column with an empty label
    (`C79_no_columns`); the number of dimensions cannot be told from the file (`C79_dimensions_lost`).
32. With both infinities in a larry, `y.sum(1).sum()` can be a number while `y.sum()` is NaN: the NaN that
    `inf - inf` gives for a row counts as missing in the second sum (`C84_sum_infinities`).
33. The documentation of `lastrank` (la/deflarry.py:1590-1593) says that it is a slice of `ranking`.  A line with a
    single value gives NaN in one and 0 in the other, and infinities are counted by `ranking` only (`C85_doc_claim`).
34. `assert_iscopy` compares lists of labels at the same axis only (la/util/testing.py:220-222): lists shared along
    different axes pass (`C87_iscopy_axes`).  `noreference` (la/util/testing.py:270) asks whether the arrays are one object,
    so a view passes as a copy (`C87_noreference`).
35. A printed axis of seven labels with the label `...` in the middle looks like a longer axis (`C88_dots`).
36. `indent` (la/external/prettytable.py:31, 35) uses `map(None, ...)`: under Python 3 it always raises, and with it
    `IO.__repr__` and `la.info` (`C89_python3`, `C89_listing_python3`).  Under Python 2 a table of one column is taken apart
    (`C89_one_column`) and the separator of a table of one line, such as the listing of an empty archive, is too short
    (`C89_one_line`, `C89_empty`).
37. `wrap_onspace_strict` does not enforce the width if the text contains tabs (`C90_tab`).
38. A quote that is never closed makes `fromcsv` read the rest of the file as one field, without an exception from the reader (`C76_unclosed_quote`).
39. A larry can never be assigned through a lara: `self[index]` in `larry.__setitem__` (la/deflarry.py:2120) is `lara.__getitem__`,
    which resets `self.x` to None (la/io.py:336), so that an aligned larry gives TypeError (`C93_larry`, `C93_larry_aligned`).
40. A lara keeps the labels it was made with: after the key is overwritten with the labels in another order, an assignment
    with a boolean larry goes to the wrong labels (`C93_stale`).
41. `y.lix[names, :]` keeps the caller's list `names` as a label list of the result (la/deflarry.py:5051-5052): a later
    `names.reverse()` exchanges the names of the rows of the result without moving the data (`C99_lix_list_kept`).
42. `lrange`, `ones`, `zeros` and `empty` keep the `label` given (la/flarry.py:1852, 1934): `z = la.zeros(label=y.label)` has
    its labels in common with `y`, and `z.maplabel(f, copy=False)` maps the labels of `y` too (`C99_create_shared`).
43. `keep_label` that keeps nothing returns `larry([])`, one-dimensional and of dtype float, whatever the dimension and dtype
    of the larry (la/deflarry.py:2474-2475): a following call on the other axis raises IndexError or means another axis,
    though in the opposite order both calls return (`C100_keep_nothing`).
44. The docstring of `unique` gets the different values back with `lar[indices]` (la/flarry.py:1320). The positions count along
    the flattened data, so for a larry with more than one axis this selects whole rows or raises IndexError
    (`C101_index_is_flat`). NaNs are not merged: each cell holding NaN gives its own entry.
45. Files stay open when a function of la/io.py raises between opening and closing (no `try`/`finally`): `io['none']` leaves the
    archive open for reading, and until the file object is freed every `save`, `delete`, `io[key] = y` and `lara[...] = v` by name
    raises (`C103_missing_key_locks`, `C103_locked`). `io[key] = y` whose deletion raises leaves two. A misspelt file name
    given to `load`, `delete`, `len(io)` or `key in io` makes an empty archive; `io[key]` raises IOError instead (`C103_misspelt`).
46. `var` and `std` with `ddof` larger than the number of values that are not NaN give a negative variance (a NaN `std`) without a
    warning: `larry([0., 2.]).var(ddof=3)` is -2 (`C104_negative_variance`).
47. `maplabel(func, copy=False)` with a function that raises on a label of a later axis leaves the labels of the earlier axes mapped
    (`C105_maplabel_partway`, `C105_maplabel_half`); with an axis, or with a copy, nothing changes.
48. `binaryop` with `missone` or `misstwo` and a function that raises leaves the fills in arguments that needed no realigning
    (`C105_binaryop_writes`).
49. With missing data the matrix `cov` returns need not be positive semidefinite, each element being the mean over the pairs present
    (`C67_indefinite`: rows [2, 2, 0, 0] and [2, 2, NaN, NaN]).
50. `lag` accepts a negative `nlag` and then brings later values to earlier labels (`C106_lag_ahead`); `movingsum_forward`, and
    `ranking` and `demean` along the time axis, do so by design (`C106_movingsum_forward_ahead`, `C106_ranking_ahead`,
    `C106_demean_ahead`); `vacuum` drops a column by what stands in it on later days (`C106_vacuum_ahead`).
51. `move_sum` and `move_mean` (la/deflarry.py:2737, 2772) keep a running sum: an infinity that leaves the window is subtracted from an infinite sum, which gives NaN, and NaN stays for the rest of the line. `move_func(bn.nansum, ...)` on the same data is finite again once the infinity has left (`C107_sum`, `C107_spoilt`).
52. `pull` (la/deflarry.py:2365-2366) returns a number instead of a larry if one element is left, so a program that pulls a series out of a panel gets a number on the first day and a larry from the second day on (`C108_pull_changes`).
53. A binary operation keeps the order of the labels if both larrys have the same ones, and sorts them if not (la/deflarry.py:1055-1059): as soon as one of them gets a label more, the labels that were there before come out in another order (`C108_sum_changes`). Reductions of empty data keep the dtype of the data (1472-1475), others do not (`C108_mean_changes`).
54. `y - y.lag(1)` joins two different lists of labels and so sorts them (la/deflarry.py:1055-1059); for labels that are not ascending `(y - y.lag(1)).cumsum()` adds the differences in another order than they were taken (`C109_unsorted`).
55. A list of bools is taken for the positions 0 and 1 (la/deflarry.py:1839-1843): `y[[True, False]]` reverses two rows instead of selecting one, although an array of bools is a mask (`C111_two_bools`, `C111_list_of_bools`). `np.uint8(1)` and `np.bool_` are refused as an index (`C111_refused`), a float is taken (`C111_getitem`), except in a tuple given to `lix` (`C111_lix_float`).
56. `clip` writes its result into a copy of the data, so an int larry clipped with bounds that are not whole gets the
    nearest point truncated toward zero: `larry([1, 2]).clip(1.5, 3)` still holds `1`, below the lower bound
    (`C45_int_below`; la/deflarry.py:424-462).
57. The docstring of `la.morph_like`/`larry.morph_like` shows floats for int data whose labels are all present; the code
    keeps ints (la/deflarry.py:3363-3419). The docstring is stale, the model follows the code.
58. `quantile(q, None)` of equal values depends on the order of the axes: ties are broken by the place in the array (`C112_quantile_none`).
59. `lar == None` and `lar != None` raise TypeError, while a list is compared but not added: `lar < [1, 2]` works and `lar + [1, 2]` raises TypeError (`C113_refused`, `C113_right`).
60. `lar == array` of a shape that cannot be broadcast returns the bool False, not a larry, so a following `.all()` raises AttributeError (`C113_unmatched`).
61. `assert_larry_equal('a', 'b')` raises TypeError and `assert_larry_equal(None, None)` raises AttributeError, neither an AssertionError nor a pass (`C114_scalars`, `C114_other`).
62. `set`, indexing assignment, `lix` assignment and `fill` silently truncate numbers assigned to an int larry: `larry([1, 2]).set([0], 2.75)` leaves 2 (`C116_truncates`).
63. `keep_x` of a bool larry turns the values that fail the comparison into True (`C38_keep_x_bool`); of an int larry it raises ValueError (`C38_keep_x_errors`).
64. Padding with NaN is not harmless everywhere: `any` and `all` count NaN as True, `ranking` with norm `'0,N-1'` (and `'gaussian'`) scales by the number of positions and not of values, `lastrank` is NaN if an empty label is last (`C117_any_counts_nan`, `C117_ranking_counts`, `C117_lastrank_counts`); and `vacuum` drops a label whose values are all infinite (`C117_vacuum_infinity`).
65. The dtype of whole numbers shows in four places: `//` by zero gives 0 for an int larry and inf or NaN for a float larry (`C118_floordiv_zero`); the `/` of Python 2 rounds ints down (`C118_python2`); `y + y` of a bool larry is bool (`C118_bools`); and `sum` along an axis of a larry with no elements raises ValueError for ints but gives NaN for floats (`C118_empty`).
66. `zscore` of equal numbers is NaN, and `var`/`std` with `ddof` equal to the number of values is NaN or infinite
    depending on whether the values are equal: NaN in these results does not mean that something was missing (C120).
67. `movingsum` documents that `skip` cannot be negative but does not check it (la/farray/move.py:287-292).  A skip from `-n` to
    `-window` silently counts from the end of the axis; with `window == n` a skip of `-n-1` gives the total of the line
    twice; the others raise ValueError from inside numpy (C122).
68. `stack` sorts the row and column labels even if all larrys have the same ones, where `align`, `la.add` and `merge` keep
    identical labels in their order (`C124_unsorted`); and `merge` loses the infinite numbers of its argument, `stack` does not
    (`C124_infinity`).
69. A larry is true in every condition (no `__nonzero__`/`__bool__`, no `__len__`; numpy arrays raise ValueError instead). So `5 in y` is True for any larry of two or more axes with a row, `if y == z:` is always taken, `0 < y < 1` silently drops the first comparison, `max(y, z)` and `min(y, z)` are both `z`, and `lars.index(z)` is 0 (`C125_in_table`, `C125_condition`, `C125_between`, `C125_max`, `C125_index`).
70. `__radd__ = __add__` and `__rmul__ = __mul__` assume that objects commute, and `__rsub__` that `w - v` is `-(v - w)`: `'a' + y` for an object larry of strings appends the `'a'` (`C126_strings`), and an array of dates minus a larry of time spans raises TypeError (`C126_dates`).
71. `log` makes NaN of a negative element, and sums and means then skip it as if it were missing: `exp(log(y).sum())` of 2 and -3 is 2 (`C132_negative`).

## 5. Simplifications and what is not modelled

* Floating-point rounding, integer overflow, complex numbers, structured dtypes, masked arrays, string lengths
  in dtypes (a string dtype is one dtype).
* Labels that are not hashable, or do not compare by a linear order.  Label containers other than lists.
* Messages of exceptions; only the class is modelled.  Warnings are not.
* Bool lists inside a tuple index, float indices, ellipsis, `newaxis`.
* The model's `take` always checks indices against the axis.
* The TypeError `group_*` raises for mixed types under Python 3.
* `stack` of string or object larrys is modelled as ValueError.
* h5py: files are trees of groups and datasets with attributes; names with leading or repeated slashes and `.` are
  normalised; object arrays are refused with TypeError; selections are orthogonal.  Compression, chunking, the size of
  files (`space`, `freespace`) and concurrent access are not modelled.
* csv files: the default dialect of Python's `csv` module; the conversions `str`, `repr` and `float` are parameters; encodings
  are not modelled.
* The file system: atomic `rename`, `remove`; the content of a file that is open for writing is arbitrary
  until it is closed.
* Heap: numpy basic indexing, `swapaxes`, `T`, `squeeze` give views, all other array operations give new buffers.
  unflatten, the tuple/list/dict constructors, rand, randn and `unique` are not in the heap model; `lix[...] = ...` is
  there only as a write (`inPlace`).  `putmask` in merge on arrays that overlap in memory without being the
  same array is not modelled.
* Not modelled at all: the web requests and IOError in
  la/external/matplotlib.py, la/util/report.py, the C file generated by Cython, `printfail` in
  la/util/testing.py.

## 6. Testing the theorems

`seeded/LOG.jsonl` has one line per wrong program: a definition of the model was edited in a scratch copy, the
project rebuilt, and the theorems that no longer prove recorded.  `own_proof_failed` and `lemmas_failed` list the
supporting results that failed first.  A theorem that still proved although its claim had become false was
tightened, and the line says so.
