{
 "claims": [
  {
   "property": "C01",
   "status": "proved",
   "theorems": [
    "La.C01_listmap",
    "La.C01_listmap_ignore"
   ],
   "note": "listmap, both values of ignore_unmappable, for lists over any type with decidable equality."
  },
  {
   "property": "C02",
   "status": "proved",
   "theorems": [
    "La.C02_listmap_fill"
   ],
   "note": "listmap_fill, any integer fill."
  },
  {
   "property": "C03",
   "status": "proved",
   "theorems": [
    "La.C03_cython_eq_python"
   ],
   "note": "Cython and Python loops return equal results and exceptions; C int overflow (lists longer than 2^31) is not modelled."
  },
  {
   "property": "C04",
   "status": "proved",
   "theorems": [
    "La.C04_flattenlabel_C",
    "La.C04_flattenlabel_F",
    "La.C04_flattenlabel_bad",
    "La.C04_positions_bijective"
   ],
   "note": "flattenlabel in both orders, exact positions, and the ValueError."
  },
  {
   "property": "C05",
   "status": "proved",
   "theorems": [
    "La.C05_list2index"
   ],
   "note": "list2index over any linear order."
  },
  {
   "property": "C06",
   "status": "proved",
   "theorems": [
    "La.C06_constructor",
    "La.C06_default_labels"
   ],
   "note": "Constructor with a list of label lists and with label=None; label arguments of other sequence types are not representable in the model."
  },
  {
   "property": "C07",
   "status": "proved",
   "theorems": [
    "La.C07_get"
   ],
   "note": "get on every valid larry, result and exception."
  },
  {
   "property": "C08",
   "status": "proved",
   "theorems": [
    "La.C08_set",
    "La.C08_set_history"
   ],
   "note": "set and arbitrary sequences of set calls; the cast of the new value to the array's dtype is a parameter."
  },
  {
   "property": "C09",
   "status": "proved",
   "theorems": [
    "La.C09_binop",
    "La.C09_binop_ndim",
    "La.C09_binop_dtype_error"
   ],
   "note": "All elementwise operators (operator and dtype rule are parameters)."
  },
  {
   "property": "C10",
   "status": "proved",
   "theorems": [
    "La.C10_binop_swap",
    "La.C10_labels_unique",
    "La.C10_set_order_irrelevant"
   ],
   "note": "Operand order and set iteration order."
  },
  {
   "property": "C11",
   "status": "proved",
   "theorems": [
    "La.C11_compare",
    "La.C11_compare_ndim"
   ],
   "note": "Elementwise comparisons between larrys."
  },
  {
   "property": "C12",
   "status": "proved",
   "theorems": [
    "La.C12_broadcast",
    "La.C12_scalar",
    "La.C12_broadcast_breaks"
   ],
   "note": "Includes a proof that a larger broadcast shape yields an invalid larry (the code does not check)."
  },
  {
   "property": "C13",
   "status": "proved",
   "theorems": [
    "La.C13_morph",
    "La.C13_morph_error",
    "La.C13_morph_negative_axis"
   ],
   "note": "Includes the exact condition for the cast to float, the exceptions, negative axes."
  },
  {
   "property": "C14",
   "status": "proved",
   "theorems": [
    "La.C14_morph_inverse",
    "La.C14_morph_compose"
   ],
   "note": "Inverse and composition; equality of labels, dtype, shape and all elements."
  },
  {
   "property": "C15",
   "status": "proved",
   "theorems": [
    "La.C15_morph_like",
    "La.C15_morph_like_ndim"
   ],
   "note": "All dtypes, exact cast condition, exception."
  },
  {
   "property": "C16",
   "status": "proved",
   "theorems": [
    "La.C16_align",
    "La.C16_align_fails",
    "La.C16_align_first",
    "La.C16_align_shape"
   ],
   "note": "All joins, all dtypes, both cast values; the failing cases are characterised exactly (AxisFails), and which exception comes first (C16_align_first)."
  },
  {
   "property": "C17",
   "status": "proved",
   "theorems": [
    "La.C17_align_dtype",
    "La.C17_cast_false",
    "La.C17_inner"
   ],
   "note": "Dtype of both results; cast=False raises TypeError exactly when a cast would be needed (stated for non-empty axes, where no IndexError can interfere)."
  },
  {
   "property": "C18",
   "status": "proved",
   "theorems": [
    "La.C18_align_axis",
    "La.C18_align_axis_given",
    "La.C18_errors",
    "La.C18_wrong_axis"
   ],
   "note": "The statement describes the code as it is: inner/outer read axis[i] where axis[i+1] is meant (la/flarry.py:506-510). C18_align_axis_given is the intended claim where it holds, C18_wrong_axis shows it fails otherwise."
  },
  {
   "property": "C19",
   "status": "proved",
   "theorems": [
    "La.C19_union",
    "La.C19_intersection",
    "La.C19_error",
    "La.C19_order_independent"
   ],
   "note": "Membership, order, order-independence of the arguments, exceptions."
  },
  {
   "property": "C20",
   "status": "proved",
   "theorems": [
    "La.C20_merge",
    "La.C20_merge_errors"
   ],
   "note": "All dtypes and both update values; every failing case and its exception."
  },
  {
   "property": "C21",
   "status": "proved",
   "theorems": [
    "La.C21_merge_symmetric"
   ],
   "note": "Float larrys; labels and present values agree and are exactly the union."
  },
  {
   "property": "C22",
   "status": "proved",
   "theorems": [
    "La.C22_binaryop",
    "La.C22_binaryop_align_error"
   ],
   "note": "Every elementwise function, all joins except skip (with skip the code puts None into the label list of the result)."
  },
  {
   "property": "C23",
   "status": "proved",
   "theorems": [
    "La.C23_copy",
    "La.C23_independent",
    "La.C23_values",
    "La.C23_mild",
    "La.C23_evolves",
    "La.C23_squeeze",
    "La.C23_pull",
    "La.C23_getitem",
    "La.C23_shared_labels",
    "La.C23_getitem_array",
    "La.C23_inplace",
    "La.C23_merge_self",
    "La.C23_merge_writes",
    "La.C23_binaryop",
    "La.C23_binaryop_fills",
    "La.C23_binaryop_writes"
   ],
   "note": "Reference model of larrys (buffers, views, label lists, objects) with a refinement proof to the value model. The expectation that merge and binaryop never modify their arguments is false of the code; the exact condition is proved and C23_merge_writes, C23_binaryop_writes, C23_shared_labels are concrete witnesses."
  },
  {
   "property": "C24",
   "status": "proved",
   "theorems": [
    "La.C24_sortaxis",
    "La.C24_sortaxis_idempotent",
    "La.C24_sortaxis_axis"
   ],
   "note": "All axes selections, reverse flag; idempotence needs the label order to be total on each axis (LinearOrder)."
  },
  {
   "property": "C25",
   "status": "proved",
   "theorems": [
    "La.C25_flipaxis",
    "La.C25_flipaxis_involution",
    "La.C25_flipaxis_axis"
   ],
   "note": "All axis selections including negative and duplicate handling; involution proved as equality of larrys."
  },
  {
   "property": "C26",
   "status": "proved",
   "theorems": [
    "La.C26_lag",
    "La.C26_lag_axis"
   ],
   "note": "All lags incl. |k|>=n and negative axis."
  },
  {
   "property": "C27",
   "status": "proved",
   "theorems": [
    "La.C27_transpose",
    "La.C27_swapaxes",
    "La.C27_swapaxes_axis"
   ],
   "note": "T and swapaxes for all ndim and all axes incl. negative; bad axis raises."
  },
  {
   "property": "C28",
   "status": "proved",
   "theorems": [
    "La.C28_flatten"
   ],
   "note": "Both orders; position of each tuple is fixed by the row/column-major enumeration; other orders raise ValueError."
  },
  {
   "property": "C29",
   "status": "proved",
   "theorems": [
    "La.C29_fromlist",
    "La.C29_fromlist_one",
    "La.C29_fromlist_lengths",
    "La.C29_fromtuples",
    "La.C29_fromtuples_empty",
    "La.C29_unflatten",
    "La.C29_unflatten_errors",
    "La.C29_tuples",
    "La.C29_list",
    "La.C29_dict"
   ],
   "note": "General fromlist/fromtuples result (sorted labels, last duplicate wins, NaN for unlisted) plus the four round trips; int/bool values come back as floats."
  },
  {
   "property": "C30",
   "status": "proved",
   "theorems": [
    "La.C30_panel",
    "La.C30_panel_errors"
   ],
   "note": "Every 3d larry with nonempty first axis; other ranks and an empty first axis raise ValueError."
  },
  {
   "property": "C31",
   "status": "proved",
   "theorems": [
    "La.C31_insertaxis",
    "La.C31_insertaxis_far",
    "La.C31_pull",
    "La.C31_pull_errors",
    "La.C31_inverse"
   ],
   "note": "Includes expand_dims position rule for negative axes and pull errors."
  },
  {
   "property": "C32",
   "status": "proved",
   "theorems": [
    "La.C32_squeeze"
   ],
   "note": "Including the unsupported 0d result when all axes have length 1."
  },
  {
   "property": "C33",
   "status": "proved",
   "theorems": [
    "La.C33_getitem",
    "La.C33_succeeds",
    "La.C33_kind",
    "La.C33_errors",
    "La.C33_scrambled"
   ],
   "note": "getitem on tuple and single indices; success condition, kind of result, and errors; C33_scrambled shows the excluded index form mislabels values. Lists of booleans inside tuples and float indices not modelled."
  },
  {
   "property": "C34",
   "status": "proved",
   "theorems": [
    "La.C34_take",
    "La.C34_take_errors",
    "La.C34_take_getitem",
    "La.C34_take_iff"
   ],
   "note": "Includes rejected duplicates/out of range."
  },
  {
   "property": "C35",
   "status": "proved",
   "theorems": [
    "La.C35_tuple",
    "La.C35_tuple_succeeds",
    "La.C35_one",
    "La.C35_empty"
   ],
   "note": "tuple and single-entry forms, exact success condition, empty larrys"
  },
  {
   "property": "C36",
   "status": "proved",
   "theorems": [
    "La.C36_scalar",
    "La.C36_larry",
    "La.C36_one_scalar",
    "La.C36_one_larry",
    "La.C36_one_larry_succeeds",
    "La.C36_empty"
   ],
   "note": "tuple and single-entry forms, scalar and larry values, exact success condition"
  },
  {
   "property": "C37",
   "status": "proved",
   "theorems": [
    "La.C37_mask_unaligned",
    "La.C37_mask",
    "La.C37_mask_int",
    "La.C37_scalar",
    "La.C37_larry",
    "La.C37_larry_aligned",
    "La.C37_larry_unaligned"
   ],
   "note": "larry mask, scalar and larry values; casts on assignment are a parameter"
  },
  {
   "property": "C38",
   "status": "proved",
   "theorems": [
    "La.C38_keep_label",
    "La.C38_keep_label_errors",
    "La.C38_keep_x",
    "La.C38_keep_x_errors",
    "La.C38_keep_x_bool"
   ],
   "note": "keep_label and keep_x."
  },
  {
   "property": "C39",
   "status": "proved",
   "theorems": [
    "La.C39_vacuum",
    "La.C39_vacuum_idempotent",
    "La.C39_vacuum_errors",
    "La.C39_vacuum_nothing"
   ],
   "note": "value, labels, idempotence, TypeError for str/object unless every axis is left alone."
  },
  {
   "property": "C40",
   "status": "proved",
   "theorems": [
    "La.C40_cut_missing",
    "La.C40_cut_nothing",
    "La.C40_cut_errors",
    "La.C40_cut_dtype"
   ],
   "note": "fraction is an exact rational."
  },
  {
   "property": "C41",
   "status": "proved",
   "theorems": [
    "La.C41_labelindex",
    "La.C41_nearest",
    "La.C41_labelindex_axis"
   ],
   "note": "exact and nearest modes."
  },
  {
   "property": "C42",
   "status": "proved",
   "theorems": [
    "La.C42_reduce_axis",
    "La.C42_reduce_1d",
    "La.C42_reduce_all",
    "La.C42_reduce_empty",
    "La.C42_reduce_errors"
   ],
   "note": "for every reduction function and result dtype; the reduction itself (Bottleneck or numpy) is a parameter."
  },
  {
   "property": "C43",
   "status": "proved",
   "theorems": [
    "La.C43_cumsum",
    "La.C43_cumprod",
    "La.C43_int",
    "La.C43_bool",
    "La.C43_exact",
    "La.C43_errors"
   ],
   "note": "Along an axis or over all elements, for lines without infinities: a NaN stays NaN and every other position holds the exact sum or product of the non-NaN values so far."
  },
  {
   "property": "C44",
   "status": "proved",
   "theorems": [
    "La.C44_prod_axis",
    "La.C44_prod_1d",
    "La.C44_prod_all",
    "La.C44_finite",
    "La.C44_whole_axis",
    "La.C44_whole_all"
   ],
   "note": "float larrys; exact rationals with NaN and infinities."
  },
  {
   "property": "C45",
   "status": "proved",
   "theorems": [
    "La.C45_clip",
    "La.C45_range",
    "La.C45_float",
    "La.C45_int",
    "La.C45_idempotent",
    "La.C45_errors",
    "La.C45_int_below"
   ],
   "note": "Values are moved into [lo, hi], NaN kept, infinities treated as numbers; the result is written in the dtype of the larry (truncated toward zero for ints, truth value for bools), as numpy's forced cast does; idempotent. Not modelled: int larrys clipped with NaN bounds, integer overflow."
  },
  {
   "property": "C46",
   "status": "proved",
   "theorems": [
    "La.C46_push",
    "La.C46_errors"
   ],
   "note": "A non-finite value is replaced by the last finite value at most `window` positions back; everything else stays. Infinities count as missing."
  },
  {
   "property": "C47",
   "status": "proved",
   "theorems": [
    "La.C47_lastrank",
    "La.C47_lastrank_1d",
    "La.C47_range",
    "La.C47_minimum",
    "La.C47_maximum",
    "La.C47_decay"
   ],
   "note": "Lines without infinities; weights of a decay are any positive numbers. Rational arithmetic."
  },
  {
   "property": "C48",
   "status": "proved",
   "theorems": [
    "La.C48_ranking_gaussian",
    "La.C48_ranking_gaussian_all",
    "La.C48_gaussian_order",
    "La.C48_ranking",
    "La.C48_ranking_n1",
    "La.C48_ranking_all",
    "La.C48_ranking_n1_all",
    "La.C48_gaussian",
    "La.C48_order",
    "La.C48_errors"
   ],
   "note": "Exact formula for the rank of every value, plus range and order. The gaussian norm is proved to hand ndtri a probability in (0,1); ndtri itself is a parameter. bn.nanrankdata is given by its documented result."
  },
  {
   "property": "C49",
   "status": "proved",
   "theorems": [
    "La.C49_quantile",
    "La.C49_quantile_all",
    "La.C49_monotone",
    "La.C49_one",
    "La.C49_errors"
   ],
   "note": "argsort is a parameter that must return a sorting permutation (an instance is given). q = 1 gives 0 for every value that is not NaN, infinities included."
  },
  {
   "property": "C50",
   "status": "proved",
   "theorems": [
    "La.C50_agree",
    "La.C50_move_func",
    "La.C50_in_bounds",
    "La.C50_errors"
   ],
   "note": "func is any function of a line; memory is a buffer with offset and (any, also negative) strides. Both methods, ndim 1-3 for strides, any ndim for loop; the view's addresses all belong to the input array."
  },
  {
   "property": "C51",
   "status": "proved",
   "theorems": [
    "La.C51_movingsum_forward",
    "La.C51_errors"
   ],
   "note": "skip >= 0; lines without infinities; with norm=True the sum is scaled to a full window."
  },
  {
   "property": "C52",
   "status": "proved",
   "theorems": [
    "La.C52_demean",
    "La.C52_demean_all",
    "La.C52_demedian",
    "La.C52_zscore",
    "La.C52_zscore_all",
    "La.C52_errors"
   ],
   "note": "Lines without infinities. std and median are parameters: std of the demeaned line is a number s != 0; unit variance under s*s = mean square of the demeaned line."
  },
  {
   "property": "C53",
   "status": "proved",
   "theorems": [
    "La.C53_group_mean",
    "La.C53_group_median",
    "La.C53_group_ranking",
    "La.C53_within",
    "La.C53_errors"
   ],
   "note": "Each line along the axis separately; the order of the groups is any permutation; median is a parameter. None and NaN name no group. Lines without infinities for the mean."
  },
  {
   "property": "C54",
   "status": "proved",
   "theorems": [
    "La.C54_cross_validation",
    "La.C54_errors"
   ],
   "note": "shuffle is any function returning a permutation; int(1.0*n/kfold) taken as the integer quotient (exact below 2**53)"
  },
  {
   "property": "C55",
   "status": "proved",
   "theorems": [
    "La.C55_bootstrap",
    "La.C55_errors"
   ],
   "note": "randint is any stream of draws; the order of list(set) is a parameter"
  },
  {
   "property": "C56",
   "status": "proved",
   "theorems": [
    "La.C56_set_get",
    "La.C56_save_load",
    "La.C56_set_ok",
    "La.C56_set_other",
    "La.C56_del",
    "La.C56_del_ok",
    "La.C56_keys",
    "La.C56_history",
    "La.C56_nested_overwrite",
    "La.C56_failed_set",
    "La.C56_brick"
   ],
   "note": "C56_history is the dictionary refinement over all call sequences; C56_nested_overwrite, C56_failed_set and C56_brick are the departures. h5py is modelled as a tree of groups and datasets."
  },
  {
   "property": "C57",
   "status": "proved",
   "theorems": [
    "La.C57_save_load",
    "La.C57_save_mixed",
    "La.C57_mixed",
    "La.C57_exact",
    "La.C57_roundtrip",
    "La.C57_only"
   ],
   "note": "All label lists, over Python int/float/str/bool/date/time/datetime values; calendar arithmetic (toordinal/fromordinal) proved inverse."
  },
  {
   "property": "C58",
   "status": "proved",
   "theorems": [
    "La.C58_repack",
    "La.C58_root",
    "La.C58_clobbers"
   ],
   "note": "File system as a map from names to archives with atomic rename/remove; content of an open file arbitrary until closed."
  },
  {
   "property": "C59",
   "status": "proved",
   "theorems": [
    "La.C59_clear",
    "La.C59_nested"
   ],
   "note": "C59_clear with the exact condition, C59_nested the failure."
  },
  {
   "property": "C60",
   "status": "proved",
   "theorems": [
    "La.C60_lara",
    "La.C60_lazy",
    "La.C60_succeeds",
    "La.C60_eq",
    "La.C60_list",
    "La.C60_negative",
    "La.C60_stale"
   ],
   "note": "h5py's selection is modelled (orthogonal, lists must increase as written, read in file order; zero-length selections allowed or not by a parameter). C60_negative and C60_stale are the counterexamples outside the hypotheses."
  },
  {
   "property": "C61",
   "status": "proved",
   "theorems": [
    "La.C61_ismissing",
    "La.C61_ismissing_array",
    "La.C61_nans"
   ],
   "note": "method, function and nans."
  },
  {
   "property": "C62",
   "status": "proved",
   "theorems": [
    "La.C62_stack",
    "La.C62_errors"
   ],
   "note": "for bool, int and float larrys; the keywords are labels"
  },
  {
   "property": "C63",
   "status": "proved",
   "theorems": [
    "La.C63_sortby",
    "La.C63_errors"
   ],
   "note": "argsort is a parameter with its specification"
  },
  {
   "property": "C64",
   "status": "proved",
   "theorems": [
    "La.C64_step",
    "La.C64_history",
    "La.C64_program",
    "La.C64_unfair"
   ],
   "note": "C64_history for all histories of 46 kinds of calls; C64_step for one call; C64_unfair shows the side conditions are needed (other than for binaryop with a skipped axis). Larrys are values in this model; aliasing is C23."
  },
  {
   "property": "C65",
   "status": "proved",
   "theorems": [
    "La.C65_split",
    "La.C65_bootstrap"
   ],
   "note": "index lists that partition the axis; bootstrap pairs shown to raise"
  },
  {
   "property": "C66",
   "status": "proved",
   "theorems": [
    "La.C66_step",
    "La.C66_program",
    "La.C66_scalars",
    "La.C66_canonical",
    "La.C66_reorders"
   ],
   "note": "C66_step for one call, C66_program for programs, C66_scalars for scalar results, C66_canonical for sortaxis, C66_reorders for ways to reorder. Exact numbers: in floating point a sum in another order may differ in the last bits. Positional calls (indexing, lix, take), cumulative and moving functions, lag, push, quantile, sortby and masks are not in this class."
  },
  {
   "property": "C67",
   "status": "proved",
   "theorems": [
    "La.C67_cov",
    "La.C67_symmetric",
    "La.C67_variance",
    "La.C67_semidefinite",
    "La.C67_order",
    "La.C67_errors",
    "La.C67_bool",
    "La.C67_indefinite"
   ],
   "note": "Exact rationals in place of floats; infinities are excluded from the value theorem; the bool case is C67_bool."
  },
  {
   "property": "C68",
   "status": "proved",
   "theorems": [
    "La.C68_product",
    "La.C68_quotient",
    "La.C68_units",
    "La.C68_geometric_mean",
    "La.C68_check",
    "La.C68_negative",
    "La.C68_unique",
    "La.C68_bounds"
   ],
   "note": "Exact reals in place of floats; infinities excluded. The labels of larry.geometric_mean are those of any reduction (C42)."
  },
  {
   "property": "C69",
   "status": "proved",
   "theorems": [
    "La.C69_correlation",
    "La.C69_int",
    "La.C69_bounds",
    "La.C69_unique",
    "La.C69_units",
    "La.C69_symmetric"
   ],
   "note": "Exact reals in place of floats; infinities, bool arrays, 0d arrays and broadcasting of different shapes excluded."
  },
  {
   "property": "C70",
   "status": "proved",
   "theorems": [
    "La.C70_shuffle",
    "La.C70_shufflelabel",
    "La.C70_axis",
    "La.C70_uniform"
   ],
   "note": "The draws of the random number generator are an argument. np.random.shuffle slices its elements if the first one has a length, so mixed str/number labels raise TypeError; labels of one kind are modelled."
  },
  {
   "property": "C71",
   "status": "proved",
   "theorems": [
    "La.C71_maxlabel",
    "La.C71_minlabel",
    "La.C71_axis",
    "La.C71_isaligned",
    "La.C71_align",
    "La.C71_aligned_op"
   ],
   "note": "Labels of one ordered type; Python 2 comparisons between types are not modelled."
  },
  {
   "property": "C72",
   "status": "proved",
   "theorems": [
    "La.C72_makes_unique",
    "La.C72_elementwise",
    "La.C72_invert_type_error",
    "La.C72_neg_neg",
    "La.C72_invert_invert",
    "La.C72_astype_back",
    "La.C72_exactly_one",
    "La.C72_nan_replace_isnan",
    "La.C72_sign_mul_abs",
    "La.C72_power_add"
   ],
   "note": "log, exp and sqrt are an arbitrary function of the float. Exponents are whole and >= 0. Ints and floats are unbounded and exact, so overflow and rounding are not modelled. What conversion of NaN and infinities to int gives is a parameter. String and object larrys are not modelled here."
  },
  {
   "property": "C73",
   "status": "proved",
   "theorems": [
    "La.C73_step",
    "La.C73_program",
    "La.C73_moves",
    "La.C73_no_new_values",
    "La.C73_units",
    "La.C73_units_add",
    "La.C73_units_merge",
    "La.C73_units_sum"
   ],
   "note": "24 of the 46 kinds of call in the history model take part. A call that raises leaves both runs unchanged. Functions passed in (ufuncs, reductions) must respect R; addition, subtraction, merge and nansum are shown to respect units. Floats are exact rationals with nan and infinities."
  },
  {
   "property": "C74",
   "status": "proved",
   "theorems": [
    "La.C74_right",
    "La.C74_left",
    "La.C74_right_scalar",
    "La.C74_left_scalar",
    "La.C74_bool_minus_larry",
    "La.C74_bool_minus_larry_wrong",
    "La.C74_truediv_python2"
   ],
   "note": "Ints and floats are exact and unbounded, so overflow, rounding and signed zeros are not modelled. Strings and objects are not modelled here. Arrays that broadcast to a larger shape are C12."
  },
  {
   "property": "C75",
   "status": "proved",
   "theorems": [
    "La.C75_any_order",
    "La.C75_plus_times",
    "La.C75_sums",
    "La.C75_bools",
    "La.C75_mixed_bools"
   ],
   "note": "Ints and floats are exact, so rounding and overflow (which make float sums depend on order) are not modelled."
  },
  {
   "property": "C76",
   "status": "proved",
   "theorems": [
    "La.C76_rows",
    "La.C76_rows_exact",
    "La.C76_no_final_break",
    "La.C76_unclosed_quote",
    "La.C76_roundtrip",
    "La.C76_skiprows",
    "La.C76_skiprows_python3",
    "La.C76_bad_value",
    "La.C76_blank_line",
    "La.C76_bool",
    "La.C76_empty",
    "La.C76_line_breaks_lost",
    "La.C76_same_text_lost"
   ],
   "note": "Python's csv module (default dialect) is modelled as a quoting writer and the reader's state machine. The conversions of a label or value to text and of text to float are parameters; the theorem assumes that float undoes the text of each value of the larry."
  },
  {
   "property": "C77",
   "status": "proved",
   "theorems": [
    "La.C77_lrange",
    "La.C77_lrange_distinct",
    "La.C77_filled",
    "La.C77_empty",
    "La.C77_errors",
    "La.C77_shape_ignored",
    "La.C77_rand",
    "La.C77_rand_validate"
   ],
   "note": "Shapes have no negative entries; start and step of lrange are ints (as documented); the argument order is left out."
  },
  {
   "property": "C78",
   "status": "proved",
   "theorems": [
    "La.C78_step",
    "La.C78_program",
    "La.C78_get",
    "La.C78_no_new_labels",
    "La.C78_order_matters",
    "La.C78_distinct_matters"
   ],
   "note": "Calls that raise leave the variables as they were, as in C56. Labels of one program come from one linear order."
  },
  {
   "property": "C79",
   "status": "proved",
   "theorems": [
    "La.C79_refused",
    "La.C79_written",
    "La.C79_table_1d",
    "La.C79_table_2d",
    "La.C79_no_columns",
    "La.C79_same_file",
    "La.C79_delimiter_in_label",
    "La.C79_dimensions_lost"
   ],
   "note": "Python's str() on labels and elements is a parameter."
  },
  {
   "property": "C80",
   "status": "proved",
   "theorems": [
    "La.C80_step",
    "La.C80_program",
    "La.C80_regular",
    "La.C80_view_shares"
   ],
   "note": "Calls that return views (squeeze, pull, indexing with integers and slices) and binaryop with fills are outside this statement; C23 says what they do."
  },
  {
   "property": "C81",
   "status": "proved",
   "theorems": [
    "La.C81_quotes",
    "La.C81_adjusted",
    "La.C81_order",
    "La.C81_order_adjusted",
    "La.C81_errors"
   ],
   "note": "The text of the answer is arbitrary; float, int and date reading are parameters. The address asked for and IOError are not modelled."
  },
  {
   "property": "C82",
   "status": "proved",
   "theorems": [
    "La.C82_ranking",
    "La.C82_lastrank",
    "La.C82_quantile",
    "La.C82_group_ranking",
    "La.C82_push",
    "La.C82_clip",
    "La.C82_vacuum",
    "La.C82_keep_x",
    "La.C82_ranking_reversed",
    "La.C82_lastrank_reversed"
   ],
   "note": "f is a function on rationals; floats are exact rationals in the model, so a change of units that rounds two values together is outside it. quantile assumes an argsort whose result is fixed by comparisons."
  },
  {
   "property": "C83",
   "status": "proved",
   "theorems": [
    "La.C83_demean",
    "La.C83_mean",
    "La.C83_zscore",
    "La.C83_movingsum_forward",
    "La.C83_cumsum",
    "La.C83_group",
    "La.C83_cov"
   ],
   "note": "bn.nanmedian and bn.nanstd are parameters, assumed to move and scale with the values; bn.nanmean is proved to. Floats are exact rationals, NaN and infinities."
  },
  {
   "property": "C84",
   "status": "proved",
   "theorems": [
    "La.C84_sum",
    "La.C84_max",
    "La.C84_min",
    "La.C84_any_all",
    "La.C84_sum_infinities",
    "La.C84_prod",
    "La.C84_cumsum_last"
   ],
   "note": "bn.nansum, bn.nanmax, bn.nanmin, np.any and np.all are written out on exact numbers (Bottleneck 0.7: NaN for a line of NaNs). Larrys without elements are left to C42. The condition on sum is shown to be needed."
  },
  {
   "property": "C85",
   "status": "proved",
   "theorems": [
    "La.C85_lastrank",
    "La.C85_lastrank_1d",
    "La.C85_doc_claim"
   ],
   "note": "The sentence in the documentation is false as it stands; the theorem gives the exact condition for each line, and C85_doc_claim two lines for which it fails."
  },
  {
   "property": "C86",
   "status": "proved",
   "theorems": [
    "La.C86_ranking",
    "La.C86_demean",
    "La.C86_mean",
    "La.C86_demean_infinite",
    "La.C86_zscore",
    "La.C86_morph_like",
    "La.C86_keep_label",
    "La.C86_squeeze",
    "La.C86_keep_x",
    "La.C86_merge"
   ],
   "note": "The median and the standard deviation are parameters: a centre that moves with the values, and a spread in the units of the values that does not depend on their origin. clip, vacuum and sortaxis are treated in C45, C39 and C24."
  },
  {
   "property": "C87",
   "status": "proved",
   "theorems": [
    "La.C87_iscopy",
    "La.C87_copies_pass",
    "La.C87_write",
    "La.C87_isview",
    "La.C87_complaints",
    "La.C87_references",
    "La.C87_errors",
    "La.C87_equal",
    "La.C87_equal_exact",
    "La.C87_equal_numbers",
    "La.C87_original",
    "La.C87_iscopy_axes",
    "La.C87_noreference",
    "La.C87_isview_data"
   ],
   "note": "np.may_share_memory and the tolerance of assert_almost_equal are parameters. The scalar branches of assert_larry_equal, its fall-back on TypeError, printfail and the texts of the messages are not modelled. The two gaps of assert_iscopy are hypotheses (Ordinary), with a witness for the shared lists."
  },
  {
   "property": "C88",
   "status": "proved",
   "theorems": [
    "La.C88_ok",
    "La.C88_short",
    "La.C88_long",
    "La.C88_dots",
    "La.C88_break"
   ],
   "note": "str of a label, the decimal of an axis number and repr of the array are parameters (the decimal without line breaks)."
  },
  {
   "property": "C89",
   "status": "proved",
   "theorems": [
    "La.C89_table",
    "La.C89_offset",
    "La.C89_errors",
    "La.C89_python3",
    "La.C89_one_column",
    "La.C89_one_line",
    "La.C89_listing",
    "La.C89_empty",
    "La.C89_listing_python3",
    "La.C89_same_listing"
   ],
   "note": "str of a dtype and of a shape are parameters; NameError (reduce under Python 3, no rows) is written as RuntimeError. The archive is that of C56."
  },
  {
   "property": "C90",
   "status": "proved",
   "theorems": [
    "La.C90_always",
    "La.C90_only_spaces",
    "La.C90_long_lines",
    "La.C90_breaks",
    "La.C90_strict",
    "La.C90_tab",
    "La.C90_zero"
   ],
   "note": "Python 2 (reduce). The quotient in wrap_always is exact. White space is that of byte strings."
  },
  {
   "property": "C91",
   "status": "proved",
   "theorems": [
    "La.C91_sum",
    "La.C91_mean",
    "La.C91_median",
    "La.C91_var",
    "La.C91_std",
    "La.C91_max",
    "La.C91_min",
    "La.C91_any",
    "La.C91_all",
    "La.C91_prod",
    "La.C91_empty",
    "La.C91_empty_truth",
    "La.C91_errors",
    "La.C91_middle",
    "La.C91_demedian"
   ],
   "note": "Exact arithmetic in place of floats and no overflow of ints. Bottleneck's functions are written out as lists functions from their documentation and source; the square root in std is a parameter. any and all of objects are not modelled."
  },
  {
   "property": "C92",
   "status": "proved",
   "theorems": [
    "La.C92_part",
    "La.C92_commute",
    "La.C92_errors",
    "La.C92_vacuum",
    "La.C92_cut_missing",
    "La.C92_lag",
    "La.C92_move",
    "La.C92_reduce",
    "La.C92_prod"
   ],
   "note": "For reductions both larrys must have cells (an empty part gives defaults, C91_empty). Functions left open by the model (sort, argsort, std, median of a line) are the same for part and whole. move_func for lines at least as long as the window. prod for floats."
  },
  {
   "property": "C93",
   "status": "proved",
   "theorems": [
    "La.C93_assign",
    "La.C93_cells",
    "La.C93_rest",
    "La.C93_mask",
    "La.C93_mask_outcome",
    "La.C93_error",
    "La.C93_larry",
    "La.C93_larry_aligned",
    "La.C93_succeeds",
    "La.C93_succeeds_mask",
    "La.C93_program",
    "La.C93_history",
    "La.C93_stale"
   ],
   "note": "Scalars as values, after the cast to the dtype of the dataset. h5py 2.x selections are part of the model. Witnesses: C93_larry_aligned (assigning an aligned larry is a TypeError), C93_stale (an old lara writes to the wrong labels after the key is overwritten)."
  },
  {
   "property": "C94",
   "status": "proved",
   "theorems": [
    "La.C94_items",
    "La.C94_each",
    "La.C94_update",
    "La.C94_copy",
    "La.C94_lazy",
    "La.C94_removed",
    "La.C94_stale",
    "La.C94_slash"
   ],
   "note": "Copying with [:] needs an h5py that allows empty selections, or larrys with cells. Witnesses: C94_removed (KeyError for a key removed ahead), C94_stale (items() has outdated laras), C94_slash (overwriting a key with a slash in a loop is a RuntimeError)."
  },
  {
   "property": "C95",
   "status": "proved",
   "theorems": [
    "La.C95_formula",
    "La.C95_same",
    "La.C95_not_and",
    "La.C95_not_less",
    "La.C95_equal",
    "La.C95_reflected",
    "La.C95_isnan",
    "La.C95_assign",
    "La.C95_nan_not_less"
   ],
   "note": "For all expression trees over bool, int and float larrys with the same number of axes. Ints and floats are exact and unbounded; strings and objects are not covered; the value assigned in y[condition] = v is taken as already cast to the dtype of y."
  },
  {
   "property": "C96",
   "status": "proved",
   "theorems": [
    "La.C96_outer",
    "La.C96_any_order",
    "La.C96_operator",
    "La.C96_operator_refused",
    "La.C96_operator_ndim",
    "La.C96_infinite"
   ],
   "note": "The fill value is assumed to be 0 (1) after numpy's conversion to float. Witness C96_infinite: with infinite numbers the order matters. Results with join='skip' (a label list that is None) are outside."
  },
  {
   "property": "C97",
   "status": "proved",
   "theorems": [
    "La.C97_window",
    "La.C97_median",
    "La.C97_ranking",
    "La.C97_refused",
    "La.C97_arguments",
    "La.C97_method",
    "La.C97_one",
    "La.C97_whole",
    "La.C97_lag",
    "La.C97_lead",
    "La.C97_forward"
   ],
   "note": "Functions are given by what they do to one line, as in C42 and C91; the larry has elements where the ordinary method is compared. C97_forward excludes infinite numbers (cumulative sums). The methods move_sum, move_mean, move_std, move_min and move_max call Bottleneck's compiled loops, which are not modelled."
  },
  {
   "property": "C98",
   "status": "proved",
   "theorems": [
    "La.C98_merge",
    "La.C98_clash",
    "La.C98_parentheses",
    "La.C98_any_order",
    "La.C98_pieces"
   ],
   "note": "Each larry occurs as an object of its own, since merge may write into the larry it is called on (C23). A value is one that merge regards as present: infinite numbers count as missing, as in C20, so that the last three theorems compare larrys without infinite numbers (C98_pieces: the finite values)."
  },
  {
   "property": "C99",
   "status": "proved",
   "theorems": [
    "La.C99_fresh",
    "La.C99_independent",
    "La.C99_values",
    "La.C99_lix",
    "La.C99_lix_self",
    "La.C99_create",
    "La.C99_lix_list_kept",
    "La.C99_create_shared"
   ],
   "note": "The claim in general terms (all of them independent of their arguments) is false of the code for lix with lists and for label=: C99_lix and C99_create state exactly what is shared, C99_lix_list_kept and C99_create_shared show the consequences (findings 41, 42). lix of a single entry that is not a tuple is y[...] and shares as in C23; its values are covered by C99_values. sortby is stated for larrys with at most two label lists (it raises for other dimensions)."
  },
  {
   "property": "C100",
   "status": "proved",
   "theorems": [
    "La.C100_each",
    "La.C100_returns",
    "La.C100_commute",
    "La.C100_regroup",
    "La.C100_lag_lag",
    "La.C100_keep_nothing"
   ],
   "note": "Each call has to find what it looks for: keep_label that keeps nothing returns larry([]), after which the other axis is gone (C100_keep_nothing, finding 43), and maplabel must not make two labels of an axis equal (the code does not check). For the other calls C100_returns shows that returning is the same as finding what they look for."
  },
  {
   "property": "C101",
   "status": "proved",
   "theorems": [
    "La.C101_values",
    "La.C101_determined",
    "La.C101_index",
    "La.C101_inverse",
    "La.C101_asked",
    "La.C101_index_is_flat"
   ],
   "note": "np.unique is part of the model (NumPy 1.6 and 1.7); the sort inside it is any function that sorts arrays of one dtype (exMergesort_sorts, exMergesort_stable show there is one). Arrays of objects are left out. Positions count along the flattened data: with more than one axis they are no positions for y[...], though the docstring writes lar[indices] (C101_index_is_flat, finding 44)."
  },
  {
   "property": "C102",
   "status": "proved",
   "theorems": [
    "La.C102_ranking",
    "La.C102_mean",
    "La.C102_median",
    "La.C102_names",
    "La.C102_one_ranking",
    "La.C102_one_mean",
    "La.C102_one_median",
    "La.C102_twice",
    "La.C102_own"
   ],
   "note": "group_median uses the median of the model of bn.nanmedian (medianOf), the one y.median uses. The sort of the group names is any function that permutes; Python 3 raises TypeError when group names of different kinds are sorted, which the model leaves out (as in C53). Mean and median along the axis need a larry with elements."
  },
  {
   "property": "C103",
   "status": "proved",
   "theorems": [
    "La.C103_call",
    "La.C103_returns_closed",
    "La.C103_name_or_file",
    "La.C103_program",
    "La.C103_collected",
    "La.C103_separate",
    "La.C103_other",
    "La.C103_misspelt",
    "La.C103_locked",
    "La.C103_missing_key_locks",
    "La.C103_is_archived_larry"
   ],
   "note": "h5py and HDF5 are part of the trusted base: h5py.File(name) opens for writing unless the file is open for reading, then for reading; h5py.File(name, 'r') raises IOError if there is no such file; a write to a file open for reading raises (which exception is not claimed). Permissions, other processes and the moment the interpreter frees a traceback are not modelled. What each function does to the content is Verif/IO.lean (C33, C56, C60, C68)."
  },
  {
   "property": "C104",
   "status": "proved",
   "theorems": [
    "La.C104_grows",
    "La.C104_grows_finite",
    "La.C104_between",
    "La.C104_var",
    "La.C104_moving",
    "La.C104_cumsum",
    "La.C104_clip_order",
    "La.C104_clip_range",
    "La.C104_infinities",
    "La.C104_negative_variance"
   ],
   "note": "Floats are exact rationals with NaN and infinities; with rounding, the mean of equal numbers may exceed their maximum in the last bit. A sum of infinities of both signs is NaN, so monotonicity is claimed where both results are numbers (C104_infinities)."
  },
  {
   "property": "C105",
   "status": "proved",
   "theorems": [
    "La.C105_act",
    "La.C105_call",
    "La.C105_maplabel_total",
    "La.C105_maplabel",
    "La.C105_maplabel_partway",
    "La.C105_archive",
    "La.C105_files",
    "La.C105_save_existing",
    "La.C105_binaryop_writes",
    "La.C105_maplabel_half"
   ],
   "note": "In-place operations of numpy (putmask, x[...] = v, shuffle) are taken to check their arguments before they write. For save, io[key] = y and clear() see C56_failed_set, C56_brick and C59."
  },
  {
   "property": "C106",
   "status": "proved",
   "theorems": [
    "La.C106_step",
    "La.C106_program",
    "La.C106_lag_ahead",
    "La.C106_movingsum_forward_ahead",
    "La.C106_ranking_ahead",
    "La.C106_demean_ahead",
    "La.C106_cumsum_ahead",
    "La.C106_vacuum_ahead"
   ],
   "note": "A step or a window that is not in the class of calls (vacuum, cut_missing, keep_x, sortby, merge with update=False, axis=None for ranking, demean and zscore) either looks ahead or decides by the data which labels or exceptions there are."
  },
  {
   "property": "C107",
   "status": "proved",
   "theorems": [
    "La.C107_sum",
    "La.C107_mean",
    "La.C107_min",
    "La.C107_max",
    "La.C107_std",
    "La.C107_errors",
    "La.C107_move_func",
    "La.C107_between",
    "La.C107_no_look_ahead",
    "La.C107_forward",
    "La.C107_spoilt"
   ],
   "note": "Bottleneck's running sum and count loop is modelled for move_sum and move_mean; move_min, move_max and move_std are modelled by Bottleneck's documented result for each window. Numbers are exact, so rounding of the running sum is not covered. Boolean arrays, for which Bottleneck falls back on SciPy, are left out. Finding 51: one infinity turns all later running values of its line into NaN."
  },
  {
   "property": "C108",
   "status": "proved",
   "theorems": [
    "La.C108_step",
    "La.C108_program",
    "La.C108_unique",
    "La.C108_keep_label",
    "La.C108_commutes",
    "La.C108_ranking_changes",
    "La.C108_demean_changes",
    "La.C108_morph_changes",
    "La.C108_pull_changes",
    "La.C108_mean_changes",
    "La.C108_sum_changes"
   ],
   "note": "Stated for runs in which no call raises: a shorter axis can make a call raise (a window longer than the axis, a label not there yet). squeeze, getitem and lix by position, align_axis, sortby, vacuum, cut_missing and keep_x are not in the class; for the last ones see C106_vacuum_ahead. Findings 52 and 53, and C106's findings about calls that look ahead, show that the conditions are needed."
  },
  {
   "property": "C109",
   "status": "proved",
   "theorems": [
    "La.C109_moving_sum",
    "La.C109_difference",
    "La.C109_summed",
    "La.C109_compounded",
    "La.C109_ratio",
    "La.C109_windows_add",
    "La.C109_unsorted"
   ],
   "note": "Exact arithmetic, no rounding. Finding 54 shows that ascending labels are needed for the sums and products of differences and ratios."
  },
  {
   "property": "C110",
   "status": "proved",
   "theorems": [
    "La.C110_step",
    "La.C110_program",
    "La.C110_merge_reads",
    "La.C110_vacuum_reads",
    "La.C110_cut_missing_reads",
    "La.C110_keep_x_reads",
    "La.C110_sortby_reads",
    "La.C110_mask_reads"
   ],
   "note": "For the calls in the modelled language of programs (Cmd). The conditions are those listed in the statement; each call left out has a witness that it reads the values."
  },
  {
   "property": "C111",
   "status": "proved",
   "theorems": [
    "La.C111_types",
    "La.C111_isstring",
    "La.C111_getitem",
    "La.C111_refused",
    "La.C111_tuple",
    "La.C111_list_of_bools",
    "La.C111_two_bools",
    "La.C111_lix",
    "La.C111_lix_tuple",
    "La.C111_lix_float"
   ],
   "note": "The class hierarchy of numpy's scalar types is modelled as a table. NaN and infinities as indices, lists of floats, float arrays and slices with float bounds are not modelled. The meaning is given by reduction to the integer indices of C33 and C35."
  },
  {
   "property": "C112",
   "status": "proved",
   "theorems": [
    "La.C112_line",
    "La.C112_T",
    "La.C112_swapaxes",
    "La.C112_reduce",
    "La.C112_reduce_none",
    "La.C112_whole",
    "La.C112_elementwise",
    "La.C112_binop",
    "La.C112_move",
    "La.C112_program",
    "La.C112_transpose_first",
    "La.C112_move_func",
    "La.C112_prod",
    "La.C112_quantile_none"
   ],
   "note": "C112_prod is for floats and larrys with cells. For moves the calls are shown to return together and not which exception is raised; keep_label when no label is left and maplabel when it makes duplicates are not part of programs (findings of C100)."
  },
  {
   "property": "C113",
   "status": "proved",
   "theorems": [
    "La.C113_right",
    "La.C113_left",
    "La.C113_refused",
    "La.C113_unmatched",
    "La.C113_well_formed",
    "La.C113_exceptions"
   ],
   "note": "An array or numpy scalar on the left of a comparison is left out (numpy 1.6 does not always hand it to the larry), and a bool minus a bool larry (C74). Lists and tuples are given by the array numpy makes of them. Strings and objects as data are not modelled."
  },
  {
   "property": "C114",
   "status": "proved",
   "theorems": [
    "La.C114_arguments",
    "La.C114_scalars",
    "La.C114_one_larry",
    "La.C114_larrys",
    "La.C114_other",
    "La.C114_message",
    "La.C114_message_title",
    "La.C114_message_text",
    "La.C114_message_test"
   ],
   "note": "Numpy's assert_equal and assert_almost_equal of two scalars are modelled for numbers and strings, with the tolerance a parameter; their texts are arbitrary. Complex numbers are not modelled. Objects of the last kind have no attribute label."
  },
  {
   "property": "C115",
   "status": "proved",
   "theorems": [
    "La.C115_statistics",
    "La.C115_moving",
    "La.C115_moving_ranking",
    "La.C115_move",
    "La.C115_operators",
    "La.C115_sum_shift"
   ],
   "note": "The square root is a parameter that takes a*a*x to |a| times the root of x. Floats are exact rationals with NaN and the infinities. A sum with b not 0 changes by b times the number of values that are not NaN, shown by a case."
  },
  {
   "property": "C116",
   "status": "proved",
   "theorems": [
    "La.C116_set",
    "La.C116_set_errors",
    "La.C116_own",
    "La.C116_exact",
    "La.C116_history",
    "La.C116_fill",
    "La.C116_setitem",
    "La.C116_setitem_larry",
    "La.C116_mask",
    "La.C116_lix",
    "La.C116_lix_larry",
    "La.C116_truncates"
   ],
   "note": "numpy's conversion on assignment is given by its documented result. NaN and infinities into an int larry by indexing, strings and None into numbers, overflow and the length of string dtypes are not covered."
  },
  {
   "property": "C117",
   "status": "proved",
   "theorems": [
    "La.C117_reductions",
    "La.C117_normalize",
    "La.C117_running",
    "La.C117_quantile",
    "La.C117_elementwise",
    "La.C117_arith",
    "La.C117_binop",
    "La.C117_morph",
    "La.C117_align",
    "La.C117_vacuum",
    "La.C117_chain",
    "La.C117_any_counts_nan",
    "La.C117_ranking_counts",
    "La.C117_lastrank_counts",
    "La.C117_push_fills",
    "La.C117_vacuum_infinity"
   ],
   "note": "any, all, ranking with the other norms, lastrank, push and the moving statistics do count empty labels, and vacuum drops infinities (C117_any_counts_nan, C117_ranking_counts, C117_lastrank_counts, C117_push_fills, C117_vacuum_infinity); quantile is stated along an axis with at most as many bins as the smaller larry has labels, the root behind std maps NaN to NaN, power is with a positive integer exponent."
  },
  {
   "property": "C118",
   "status": "proved",
   "theorems": [
    "La.C118_reductions",
    "La.C118_prod",
    "La.C118_normalizing",
    "La.C118_groups",
    "La.C118_push",
    "La.C118_running",
    "La.C118_windows",
    "La.C118_elementwise",
    "La.C118_operators",
    "La.C118_right",
    "La.C118_left",
    "La.C118_formula",
    "La.C118_floordiv_zero",
    "La.C118_python2",
    "La.C118_bools",
    "La.C118_empty"
   ],
   "note": "Ints are unbounded in the model, so int overflow, which floats do not have, is outside it, and so is the rounding of large ints to floats. clip is not covered: it casts its bounds to the dtype of the larry."
  },
  {
   "property": "C119",
   "status": "proved",
   "theorems": [
    "La.C119_fewer",
    "La.C119_law",
    "La.C119_polynomial",
    "La.C119_distributive",
    "La.C119_squares",
    "La.C119_add_sub",
    "La.C119_mul_div",
    "La.C119_infinity"
   ],
   "note": "Numbers are exact: the rounding of floats, which breaks these laws in the last digit, is outside the model. Bool larrys, whose arithmetic is logic, are excluded."
  },
  {
   "property": "C120",
   "status": "proved",
   "theorems": [
    "La.C120_step",
    "La.C120_program",
    "La.C120_blank",
    "La.C120_reductions",
    "La.C120_ismissing",
    "La.C120_elementwise",
    "La.C120_division",
    "La.C120_zscore",
    "La.C120_ddof"
   ],
   "note": "Floats are exact numbers, so that sums and products do not overflow to infinity. The functions that are parameters of the model are assumed to give a number for a number (square root of a number not below zero, ndtri between 0 and 1) and NaN for NaN; argsort sorts."
  },
  {
   "property": "C121",
   "status": "proved",
   "theorems": [
    "La.C121_step",
    "La.C121_program",
    "La.C121_reductions",
    "La.C121_elementwise",
    "La.C121_ddof",
    "La.C121_division",
    "La.C121_merge"
   ],
   "note": "Floats are exact numbers, so that sums and products do not overflow to infinity. The functions that are parameters of the model are assumed to give a number for a number (square root of a number not below zero, ndtri between 0 and 1) and NaN for NaN; argsort sorts."
  },
  {
   "property": "C122",
   "status": "proved",
   "theorems": [
    "La.C122_refines",
    "La.C122_from_the_end",
    "La.C122_windows",
    "La.C122_errors",
    "La.C122_corner"
   ],
   "note": "Whether numpy raises is decided on the lengths of the slices, as numpy does. Floats are exact numbers. Larrys of strings and objects are left to the note of C51."
  },
  {
   "property": "C123",
   "status": "proved",
   "theorems": [
    "La.C123_between",
    "La.C123_missing",
    "La.C123_missing_ranking",
    "La.C123_grows",
    "La.C123_neutral",
    "La.C123_infinity"
   ],
   "note": "Floats are exact numbers, so that a mean that is zero is exactly zero. With an infinity in the group the mean is infinite and the difference NaN (C123_infinity)."
  },
  {
   "property": "C124",
   "status": "proved",
   "theorems": [
    "La.C124_page",
    "La.C124_roundtrip",
    "La.C124_statistics",
    "La.C124_add",
    "La.C124_multiply",
    "La.C124_merge",
    "La.C124_panel",
    "La.C124_unsorted",
    "La.C124_infinity"
   ],
   "note": "Floats are exact numbers, so that sums and products do not depend on the order. Labels of the keywords and of the rows and columns are of one ordered type."
  },
  {
   "property": "C125",
   "status": "proved",
   "theorems": [
    "La.C125_loop",
    "La.C125_unpack",
    "La.C125_in_values",
    "La.C125_in_rows",
    "La.C125_in_larry",
    "La.C125_condition",
    "La.C125_between",
    "La.C125_between_larrys",
    "La.C125_max",
    "La.C125_index",
    "La.C125_in_line",
    "La.C125_in_table"
   ],
   "note": "Python's loop, membership test, unpacking, truth test, chained comparison, max/min and list.index/count are modelled on top of __getitem__ and the comparisons; objects looked for are Python numbers and larrys."
  },
  {
   "property": "C126",
   "status": "proved",
   "theorems": [
    "La.C126_larrys",
    "La.C126_ndim",
    "La.C126_right",
    "La.C126_neg",
    "La.C126_left",
    "La.C126_left_sound",
    "La.C126_strings",
    "La.C126_dates"
   ],
   "note": "Python's operators on objects are a parameter; numpy's object loop is modelled as calling them element by element and letting the first exception through."
  },
  {
   "property": "C127",
   "status": "proved",
   "theorems": [
    "La.C127_mean",
    "La.C127_var",
    "La.C127_add",
    "La.C127_neg",
    "La.C127_any_all",
    "La.C127_missing",
    "La.C127_add_gaps",
    "La.C127_add_bool"
   ],
   "note": "Numbers are exact rationals with NaN and infinities, so rounding is not part of the claim."
  },
  {
   "property": "C128",
   "status": "proved",
   "theorems": [
    "La.C128_median",
    "La.C128_count",
    "La.C128_parts"
   ],
   "note": "Exact rational arithmetic; rounding is not part of the claim."
  },
  {
   "property": "C129",
   "status": "proved",
   "theorems": [
    "La.C129_diagonal",
    "La.C129_moments",
    "La.C129_bound",
    "La.C129_correlation"
   ],
   "note": "Exact arithmetic (rational, real for the roots); rounding is not part of the claim. var divides by the number of values (ddof=0), as cov does."
  },
  {
   "property": "C130",
   "status": "proved",
   "theorems": [
    "La.C130_ranking",
    "La.C130_ranking_n1",
    "La.C130_centred",
    "La.C130_zscore",
    "La.C130_group_ranking",
    "La.C130_gaussian_ties"
   ],
   "note": "Over exact rationals; the square root is a parameter, so zscore is settled on lines whose standard deviation is rational. C130_gaussian_ties is the witness for the last sentence."
  },
  {
   "property": "C131",
   "status": "proved",
   "theorems": [
    "La.C131_std",
    "La.C131_zscore",
    "La.C131_axis",
    "La.C131_unique",
    "La.C131_std_unique",
    "La.C131_std_zero",
    "La.C131_std_units",
    "La.C131_order",
    "La.C131_units",
    "La.C131_negative",
    "La.C131_again",
    "La.C131_bounds",
    "La.C131_correlation",
    "La.C131_ddof"
   ],
   "note": "On the arrays, with exact real arithmetic and the real square root; the labels are the subject of C52 and C44. Infinite elements are excluded."
  },
  {
   "property": "C132",
   "status": "proved",
   "theorems": [
    "La.C132_inverse",
    "La.C132_elements",
    "La.C132_sqrt",
    "La.C132_sum",
    "La.C132_mean",
    "La.C132_cumsum",
    "La.C132_prod",
    "La.C132_running",
    "La.C132_negative"
   ],
   "note": "On the arrays of float larrys with exact real arithmetic; the labels are the subject of other properties. C132_negative is the witness for the last sentence."
  },
  {
   "property": "C133",
   "status": "proved",
   "theorems": [
    "La.C133_reductions",
    "La.C133_std",
    "La.C133_prod",
    "La.C133_demean",
    "La.C133_zscore",
    "La.C133_running"
   ],
   "note": "Links the rational model of larrys (Verif/Stats.lean, Verif/Kernel.lean) to the real one of arrays (Verif/RealScore.lean, Verif/RealLog.lean), so that C131 and C132 speak about the methods. The square root is a parameter of the rational model; std and zscore are compared where it is exact."
  },
  {
   "property": "C134",
   "status": "proved",
   "theorems": [
    "La.C134_mean",
    "La.C134_median",
    "La.C134_var",
    "La.C134_range",
    "La.C134_tail",
    "La.C134_near"
   ],
   "note": "Numbers are rationals, as everywhere in the model of larrys. bn.nanmean, bn.nanmedian and bn.nanvar are modelled, not assumed to satisfy this."
  },
  {
   "property": "C135",
   "status": "proved",
   "theorems": [
    "La.C135_split",
    "La.C135_missing"
   ],
   "note": "Numbers are rationals, as everywhere in the model of larrys. C135_missing shows that the condition on missing elements is needed."
  }
 ]
}
