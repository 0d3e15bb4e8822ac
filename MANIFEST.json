{
 "claims": [
  {
   "property": "C01",
   "status": "proved",
   "theorems": [
    "BaderKit.C01_wrap_periodic",
    "BaderKit.C01_unit_step",
    "BaderKit.C01_wrap_shift",
    "BaderKit.C01_outside_window_fails",
    "BaderKit.C01_neighbor_symm"
   ],
   "note": "Modelled in Index: `wrapAxis`, `wrapPoint`, `wrapPointShift`. case split, `omega`; uniqueness mod n. Proved deviations of the code: outside the window -n..2n the result is out of range."
  },
  {
   "property": "C02",
   "status": "proved",
   "theorems": [
    "BaderKit.C02_flat_bijection",
    "BaderKit.C02_loop_order"
   ],
   "note": "Modelled in Index: `flatToCoords`, `coordsToFlat`. Euclidean division; bijection; order of the triple loop."
  },
  {
   "property": "C03",
   "status": "proved",
   "theorems": [
    "BaderKit.C03_union_find_equivalence",
    "BaderKit.C03_find_root_keeps_roots"
   ],
   "note": "Modelled in UnionFind: `findRoot`, `findRootNC`, `union`. invariant \"forest of height at most n generated by the requests\" over all histories; equality with `Relation.EqvGen`."
  },
  {
   "property": "C04",
   "status": "proved",
   "theorems": [
    "BaderKit.C04_groups_partition",
    "BaderKit.C04_find_root",
    "BaderKit.C04_groups_sets",
    "BaderKit.C04_bulk_union"
   ],
   "note": "Modelled in UnionFind: the growing object, with `groups`, `groups_sets` and `bulk_union`. refinement to C03; `bulk_union` by cases of its loop. Proved deviations of the code: `bulk_union` is broken: `union` returns nothing, so its loop variable is None after the first pair (`C04_bulk_union`). numba typing is a parameter (`compiles`). `groups` passes a list to a function that reads `dtype`: the list is treated as an array.."
  },
  {
   "property": "C05",
   "status": "proved",
   "theorems": [
    "BaderKit.C05_offsets_are_positions"
   ],
   "note": "Modelled in UnionFind: `findRootShift`, `unionShift`. potential invariant over all histories."
  },
  {
   "property": "C06",
   "status": "proved",
   "theorems": [
    "BaderKit.C06_mask_one_per_group",
    "BaderKit.C06_shift_mask"
   ],
   "note": "Modelled in UnionFind: root mask. invariant over all histories."
  },
  {
   "property": "C07",
   "status": "proved",
   "theorems": [
    "BaderKit.C07_best_neighbor",
    "BaderKit.C07_self_iff_max"
   ],
   "note": "Modelled in Voxels: `bestNeighbor`. fold invariant."
  },
  {
   "property": "C08",
   "status": "proved",
   "theorems": [
    "BaderKit.C08_maxima_exact",
    "BaderKit.C08_schedule_independent",
    "BaderKit.C08_exists_max",
    "BaderKit.C08_threshold_upClosed"
   ],
   "note": "Modelled in Voxels: `getMaxima`. pointwise; order independence over permutations; existence by finiteness."
  },
  {
   "property": "C09",
   "status": "proved",
   "theorems": [
    "BaderKit.C09_ascent_unique",
    "BaderKit.C09_ongrid"
   ],
   "note": "Modelled in Voxels: `steepestPointers`, `getRoots`, `rankLabels`. pointers strictly increase; composition of C07, C10, C11."
  },
  {
   "property": "C10",
   "status": "proved",
   "theorems": [
    "BaderKit.C10_get_roots",
    "BaderKit.C10_idempotent",
    "BaderKit.C10_vacuum_pointer_wrong"
   ],
   "note": "Modelled in Voxels: `getRoots`. rounds of doubling are iterates `p^[2^k]`; well-founded height. Proved deviations of the code: a pointer into the vacuum is followed to the last voxel."
  },
  {
   "property": "C11",
   "status": "proved",
   "theorems": [
    "BaderKit.C11_labels_contiguous"
   ],
   "note": "Modelled in Voxels: ranking by `np.unique`. rank in sorted deduplicated list."
  },
  {
   "property": "C12",
   "status": "proved",
   "theorems": [
    "BaderKit.C12_per_basin",
    "BaderKit.C12_conservation"
   ],
   "note": "Modelled in Voxels: accumulation. exchange of sums."
  },
  {
   "property": "C13",
   "status": "proved",
   "theorems": [
    "BaderKit.C13_edges_exact",
    "BaderKit.C13_edges_symmetric",
    "BaderKit.C13_schedule_independent",
    "BaderKit.C13_neighbors26"
   ],
   "note": "Modelled in Voxels: `getEdges`. pointwise; neighbour symmetry."
  },
  {
   "property": "C14",
   "status": "proved",
   "theorems": [
    "BaderKit.C14_flat_maxima",
    "BaderKit.C14_strict_is_true",
    "BaderKit.C14_plateau_together"
   ],
   "note": "Modelled in InitLabels: clean-up loop. least fixed point, both directions by induction on chains."
  },
  {
   "property": "C15",
   "status": "proved",
   "theorems": [
    "BaderKit.C15_init_labels"
   ],
   "note": "Modelled in InitLabels: union of maxima with interpolation oracle. C03 plus fold for the highest."
  },
  {
   "property": "C16",
   "status": "partial",
   "theorems": [
    "BaderKit.C16_neargrid_order_partial",
    "BaderKit.C16_order_mismatch",
    "BaderKit.C16_order_partial",
    "BaderKit.C16_weight_order"
   ],
   "note": "Modelled in InitLabels: order of coordinates. equality for the weight method; `_partial` for ongrid (`C16_order_partial`) and neargrid (`C16_neargrid_order_partial`) under the order hypothesis. Proved deviations of the code: coordinate list in another order than the labels."
  },
  {
   "property": "C17",
   "status": "proved",
   "theorems": [
    "BaderKit.C17_shares",
    "BaderKit.C17_conservation",
    "BaderKit.C17_totals",
    "BaderKit.C17_pipeline"
   ],
   "note": "Modelled in Weight: all phases. invariant of the folds, weights sum to one, for every order of the parallel phases."
  },
  {
   "property": "C18",
   "status": "proved",
   "theorems": [
    "BaderKit.C18_labels",
    "BaderKit.C18_order"
   ],
   "note": "Modelled in Weight. induction over the sorted order."
  },
  {
   "property": "C19",
   "status": "partial",
   "theorems": [
    "BaderKit.C19_everywhere_partial",
    "BaderKit.C19_ready_partial",
    "BaderKit.C19_voxel_zero",
    "BaderKit.C19_flux_partial",
    "BaderKit.C19_false_maximum",
    "BaderKit.C19_flux_wrong"
   ],
   "note": "Modelled in Weight: flux phase with the stale variable. `_partial`: where the comparison is harmless; the voxels left without a basin by the first loop are those from which climbs end in several basins (`edge_shared`), so if a higher neighbour of the lowest voxel is shared and those listed before it are in one basin the stale label is -1 and all equations hold unless voxel 0 is shared.. Proved deviations of the code: flux credited to a wrong basin: `C19_flux_wrong`, `C19_voxel_zero`."
  },
  {
   "property": "C20",
   "status": "proved",
   "theorems": [
    "BaderKit.C20_pointers"
   ],
   "note": "Modelled in Neargrid: `gradientPointers`. C07 fallback."
  },
  {
   "property": "C21",
   "status": "proved",
   "theorems": [
    "BaderKit.C21_climb",
    "BaderKit.C21_runs_forever"
   ],
   "note": "Modelled in Neargrid: climb with path set. lexicographic measure (unvisited voxels, data). Proved deviations of the code: climb runs forever when the vacuum is unrelated to the data."
  },
  {
   "property": "C22",
   "status": "proved",
   "theorems": [
    "BaderKit.C22_neargrid",
    "BaderKit.C22_neargrid_full",
    "BaderKit.C22_refine",
    "BaderKit.C22_order_independent",
    "BaderKit.C22_threads",
    "BaderKit.C22_threads_finish",
    "BaderKit.C22_once"
   ],
   "note": "Modelled in Neargrid: refinement rounds; thread model. invariants; commutation of steps; threads with shared arrays under every schedule."
  },
  {
   "property": "C23",
   "status": "proved",
   "theorems": [
    "BaderKit.C23_atom_totals",
    "BaderKit.C23_atom_voxels",
    "BaderKit.C23_succeeds"
   ],
   "note": "Modelled in Assign: `bincount`, fancy indexing. exchange of sums."
  },
  {
   "property": "C24",
   "status": "partial",
   "theorems": [
    "BaderKit.C24_considered",
    "BaderKit.C24_nearest_partial",
    "BaderKit.C24_skewed_wrong",
    "BaderKit.C24_unwrapped_wrong",
    "BaderKit.C24_nearest_short"
   ],
   "note": "Modelled in Assign: distance matrix and argmin. minimum over considered images; orthogonal cells: minimum over the crystal (`_partial`); any cell: the same if the distance is at most half of each distance between faces (Cauchy-Schwarz with the reciprocal vectors). Proved deviations of the code: skewed cells and unwrapped coordinates."
  },
  {
   "property": "C25",
   "status": "proved",
   "theorems": [
    "BaderKit.C25_never_stale",
    "BaderKit.C25_atom_avg",
    "BaderKit.C25_mutation_stale"
   ],
   "note": "Modelled in BaderState: cache as state machine. refinement to recomputation over all histories. Proved deviations of the code: `atom_avg_surface_distances`; grids changed from outside."
  },
  {
   "property": "C26",
   "status": "proved",
   "theorems": [
    "BaderKit.C26_selected",
    "BaderKit.C26_partition",
    "BaderKit.C26_significant",
    "BaderKit.C26_badelf_wrong"
   ],
   "note": "Modelled in BaderState/Badelf: masks. pointwise; sums. Proved deviations of the code: Badelf exporter zeroes the selected atom."
  },
  {
   "property": "C27",
   "status": "partial",
   "theorems": [
    "BaderKit.C27_roundtrip_partial",
    "BaderKit.C27_chunks",
    "BaderKit.C27_data_partial",
    "BaderKit.C27_soc_lost",
    "BaderKit.C27_total_only",
    "BaderKit.C27_aug_lines",
    "BaderKit.C27_aug_string_wrong",
    "BaderKit.C27_wide_corrupts"
   ],
   "note": "Modelled in VaspFile: character level writer and reader. list lemmas; `_partial`: numbers that fit their column. Proved deviations of the code: spin-orbit sets lost, augmentation string broken, wide values corrupt."
  },
  {
   "property": "C28",
   "status": "partial",
   "theorems": [
    "BaderKit.C28_value_partial",
    "BaderKit.C28_carry_wrong",
    "BaderKit.C28_wide_exponent",
    "BaderKit.C28_whole"
   ],
   "note": "Modelled in `Model/TextFormat.lean`: decimal digits over \u211a, the Fortran form, the parser.. `_partial`: away from the carry and with two-digit exponents; numbers without a point (`C28_whole`). Proved deviations of the code: carry to the next power of ten (`C28_carry_wrong`); three-digit exponents (`C28_wide_exponent`)."
  },
  {
   "property": "C29",
   "status": "partial",
   "theorems": [
    "BaderKit.C29_volume",
    "BaderKit.C29_roundtrip_partial",
    "BaderKit.C29_origin_shift",
    "BaderKit.C29_origin_mutated",
    "BaderKit.C29_order_wrong",
    "BaderKit.C29_negative_tiny"
   ],
   "note": "Modelled in `Model/CubeFile.lean`: header, numbers in the order of the writer, reader with the origin shift.. list lemmas; `_partial`: no origin, no tiny negative values; the volume of the voxels (`C29_volume`). Proved deviations of the code: origin shift and mutated argument (`C29_origin_shift`, `C29_origin_mutated`), axis order (`C29_order_wrong`), tiny negatives (`C29_negative_tiny`)."
  },
  {
   "property": "C30",
   "status": "proved",
   "theorems": [
    "BaderKit.C30_split",
    "BaderKit.C30_injective"
   ],
   "note": "Modelled in GridOps. ring."
  },
  {
   "property": "C31",
   "status": "proved",
   "theorems": [
    "BaderKit.C31_inverse",
    "BaderKit.C31_periodic"
   ],
   "note": "Modelled in GridOps. 3x3 matrices."
  },
  {
   "property": "C32",
   "status": "partial",
   "theorems": [
    "BaderKit.C32_supercell_partial",
    "BaderKit.C32_charge_not_scaled",
    "BaderKit.C32_point_volume_wrong",
    "BaderKit.C32_spin_raises"
   ],
   "note": "Modelled in GridOps: `make_supercell`. modular arithmetic; `_partial`: values and mean. Proved deviations of the code: data not scaled, point volume kept, spin raises."
  },
  {
   "property": "C33",
   "status": "proved",
   "theorems": [
    "BaderKit.C33_weights",
    "BaderKit.C33_value",
    "BaderKit.C33_interpolates"
   ],
   "note": "Modelled in Interp: B-spline weights. `nlinarith`, convexity."
  },
  {
   "property": "C34",
   "status": "proved",
   "theorems": [
    "BaderKit.C34_value",
    "BaderKit.C34_exact",
    "BaderKit.C34_outside"
   ],
   "note": "Modelled in Interp: trilinear. convexity. Proved deviations of the code: reads out of bounds beyond two cells."
  },
  {
   "property": "C35",
   "status": "partial",
   "theorems": [
    "BaderKit.C35_spline",
    "BaderKit.C35_nearest_partial",
    "BaderKit.C35_nearest_tie_wrong",
    "BaderKit.C35_nearest_value"
   ],
   "note": "Modelled in Interp: nearest, spline. floor lemmas; `_partial`: off the half-way points. Proved deviations of the code: half-way points on odd axes."
  },
  {
   "property": "C36",
   "status": "partial",
   "theorems": [
    "BaderKit.C36_minimum",
    "BaderKit.C36_crystal_partial",
    "BaderKit.C36_skewed_wrong",
    "BaderKit.C36_dists",
    "BaderKit.C36_crystal_short"
   ],
   "note": "Modelled in CoordEnv: neighbour search. fold; orthogonal cells: minimum over the crystal (`_partial`); any cell: the same if the distance is at most each distance between faces. Proved deviations of the code: skewed cells."
  },
  {
   "property": "C37",
   "status": "proved",
   "theorems": [
    "BaderKit.C37_three_smallest",
    "BaderKit.C37_verdict"
   ],
   "note": "Modelled in CoordEnv: three smallest. fold invariant."
  },
  {
   "property": "C38",
   "status": "partial",
   "theorems": [
    "BaderKit.C38_negation",
    "BaderKit.C38_leading",
    "BaderKit.C38_same",
    "BaderKit.C38_translation_partial",
    "BaderKit.C38_tie_wrong",
    "BaderKit.C38_bond_partial",
    "BaderKit.C38_reversed",
    "BaderKit.C38_bond_order_wrong"
   ],
   "note": "Modelled in CoordEnv: canonical displacement. case analysis; `_partial`: off the ties. Proved deviations of the code: half-cell ties, order of symmetry operations."
  },
  {
   "property": "C39",
   "status": "proved",
   "theorems": [
    "BaderKit.C39_volume",
    "BaderKit.C39_error",
    "BaderKit.C39_range",
    "BaderKit.C39_monotone",
    "BaderKit.C39_degenerate_wrong",
    "BaderKit.C39_complement"
   ],
   "note": "Modelled in CubeFraction. inclusion-exclusion formula equals Lebesgue volume, by integration. Proved deviations of the code: zero normal inverted."
  },
  {
   "property": "C40",
   "status": "proved",
   "theorems": [
    "BaderKit.C40_total",
    "BaderKit.C40_entries",
    "BaderKit.C40_position",
    "BaderKit.C40_unpolarised",
    "BaderKit.C40_aligned",
    "BaderKit.C40_length"
   ],
   "note": "Modelled in BadelfDim: spin merge. list sums; positions."
  },
  {
   "property": "C41",
   "status": "partial",
   "theorems": [
    "BaderKit.C41_inside",
    "BaderKit.C41_inside_total",
    "BaderKit.C41_position",
    "BaderKit.C41_fraction",
    "BaderKit.C41_conserve_partial",
    "BaderKit.C41_share_partial",
    "BaderKit.C41_label",
    "BaderKit.C41_tie_stale",
    "BaderKit.C41_unmatched_lost",
    "BaderKit.C41_nearest_dropped",
    "BaderKit.C41_tie_unlabelled"
   ],
   "note": "Modelled in Badelf: voxel assignment. sums; `_partial`: voxels that match a site. Proved deviations of the code: unmatched voxel loses charge; ties use stale data; nearest site dropped."
  },
  {
   "property": "C42",
   "status": "proved",
   "theorems": [
    "BaderKit.C42_shares",
    "BaderKit.C42_total",
    "BaderKit.C42_positive_weights",
    "BaderKit.C42_nearest_position",
    "BaderKit.C42_nearest_wrong",
    "BaderKit.C42_no_neighbours_raise",
    "BaderKit.C42_pauling_increases"
   ],
   "note": "Modelled in ElfCharges: splitting. sums of shares. Proved deviations of the code: 'nearest' uses a list position; no neighbours raise; 'pauling' contrary to documentation."
  },
  {
   "property": "C43",
   "status": "proved",
   "theorems": [
    "BaderKit.C43_order",
    "BaderKit.C43_labels",
    "BaderKit.C43_charges"
   ],
   "note": "Modelled in ElfCharges: relabelling. fold."
  },
  {
   "property": "C44",
   "status": "proved",
   "theorems": [
    "BaderKit.C44_combine_rule",
    "BaderKit.C44_remove_rule",
    "BaderKit.C44_forest",
    "BaderKit.C44_reachable",
    "BaderKit.C44_add",
    "BaderKit.C44_remove",
    "BaderKit.C44_remove_keeps_max",
    "BaderKit.C44_collapse",
    "BaderKit.C44_queries",
    "BaderKit.C44_leaves_cover",
    "BaderKit.C44_basins_kept",
    "BaderKit.C44_cleanup",
    "BaderKit.C44_two_roots_raise",
    "BaderKit.C44_parent_cycle",
    "BaderKit.C44_depth_to_infinite",
    "BaderKit.C44_depth_to_infinite_root",
    "BaderKit.C44_depth_stale",
    "BaderKit.C44_collapse_breaks_max",
    "BaderKit.C44_depth_stale_wrong"
   ],
   "note": "Modelled in BifTree: node operations, clean-up. forest invariant over all histories; collapse and removal rules. Proved deviations of the code: two reducible roots raise; parent cycle accepted; only child collapse; stale depth; finite root raises."
  },
  {
   "property": "C45",
   "status": "proved",
   "theorems": [
    "BaderKit.C45_round_trip",
    "BaderKit.C45_feature_type_lost"
   ],
   "note": "Modelled in BifTree: dictionaries. induction over the node list. Proved deviations of the code: feature type and distance beyond atoms lost."
  },
  {
   "property": "C46",
   "status": "partial",
   "theorems": [
    "BaderKit.C46_groups",
    "BaderKit.C46_dimension_ge",
    "BaderKit.C46_dimension_partial",
    "BaderKit.C46_dimension_single",
    "BaderKit.C46_merge_wrong",
    "BaderKit.C46_vacuum_bridges",
    "BaderKit.C46_axis_one_fails",
    "BaderKit.C46_vacuum_left_out",
    "BaderKit.C46_no_vacuum_groups"
   ],
   "note": "Modelled in Groups: growing solids, cycles. C05 with positions in the infinite crystal; Gram-Schmidt span; `_partial`: no two infinite groups joined. Proved deviations of the code: joined infinite groups counted too high; vacuum bridging; axis of length one fails."
  },
  {
   "property": "C47",
   "status": "proved",
   "theorems": [
    "BaderKit.C47_minimum",
    "BaderKit.C47_maximum",
    "BaderKit.C47_first",
    "BaderKit.C47_refine",
    "BaderKit.C47_range",
    "BaderKit.C47_extremum",
    "BaderKit.C47_points",
    "BaderKit.C47_vacuum_covalent",
    "BaderKit.C47_label"
   ],
   "note": "Modelled in ElfRadii: line scan and refinement. fold and bisection invariants. Proved deviations of the code: vacuum label read as last feature."
  },
  {
   "property": "C48",
   "status": "proved",
   "theorems": [
    "BaderKit.C48_shift",
    "BaderKit.C48_index",
    "BaderKit.C48_connections"
   ],
   "note": "Modelled in Index encodings. `omega`."
  },
  {
   "property": "C49",
   "status": "partial",
   "theorems": [
    "BaderKit.C49_surface_partial",
    "BaderKit.C49_distance",
    "BaderKit.C49_vacuum_pollutes",
    "BaderKit.C49_not_capped",
    "BaderKit.C49_badelf_partial",
    "BaderKit.C49_bader_partial",
    "BaderKit.C49_no_surface",
    "BaderKit.C49_vacuum_border"
   ],
   "note": "Modelled in Assign: surface distances; SurfaceRuns: the calls of Bader and BadELF with their edges. `_partial`: orthogonal cells, for Bader runs no vacuum edge voxels or not the last basin; the starting value of the minimum is never reached (wrapped vectors are shorter than 3/2 of the longest lattice vector). Proved deviations of the code: vacuum edge voxels added to the last basin."
  },
  {
   "property": "C50",
   "status": "partial",
   "theorems": [
    "BaderKit.C50_totals_partial",
    "BaderKit.C50_edge_maximum_lost",
    "BaderKit.C50_vacuum_not_normalised",
    "BaderKit.C50_vacuum_volume",
    "BaderKit.C50_other_reference_lost",
    "BaderKit.C50_flow",
    "BaderKit.C50_run"
   ],
   "note": "Modelled in NeargridWeight with the labels of Neargrid (`nwRun`). push pass invariant; whole run composed with C22: complete iff no maximum touches another basin; `_partial`: same order of charge and reference, no maximum among edges; `C50_flow` (`Props/NeargridWeightFlow.lean`): charges and volumes as the unique solution of the flow equations, by induction on the processed edges. Proved deviations of the code: edge maxima and other orders lose charge; vacuum charge not normalised."
  },
  {
   "property": "C51",
   "status": "proved",
   "theorems": [
    "BaderKit.C51_in_cell",
    "BaderKit.C51_single",
    "BaderKit.C51_translation_invariant",
    "BaderKit.C51_weighted_translation_invariant",
    "BaderKit.C51_weighted_hull",
    "BaderKit.C51_half_cell_tie",
    "BaderKit.C51_misaligned_weights",
    "BaderKit.C51_merged_voxel"
   ],
   "note": "Modelled in `Model/Merge.lean`: unwrapping around the first member, weighted mean, wrapping, the voxel taken for a merged maximum.. floor lemmas; convex hull; distance of at most half a voxel (`C51_merged_voxel`). Proved deviations of the code: half-cell ties (`C51_half_cell_tie`); weights misaligned (`C51_misaligned_weights`)."
  },
  {
   "property": "C52",
   "status": "partial",
   "theorems": [
    "BaderKit.C52_complete_short",
    "BaderKit.C52_sound",
    "BaderKit.C52_complete_partial",
    "BaderKit.C52_skewed_missed"
   ],
   "note": "Modelled in Transforms. box enumeration; orthogonal completeness (`_partial`); any cell: completeness up to a shorter radius. Proved deviations of the code: skewed lattices."
  },
  {
   "property": "C53",
   "status": "proved",
   "theorems": [
    "BaderKit.C53_label",
    "BaderKit.C53_label_background",
    "BaderKit.C53_none_full_fails"
   ],
   "note": "Modelled in GridLabel with scipy labelling contract. padded box paths; closure of connections. Proved deviations of the code: structure=None on a full array raises."
  },
  {
   "property": "C54",
   "status": "partial",
   "theorems": [
    "BaderKit.C54_unique",
    "BaderKit.C54_ignore_partial",
    "BaderKit.C54_ignore_wrong",
    "BaderKit.C54_kept"
   ],
   "note": "Modelled in ElfCharges/structure relabelling. list induction; `_partial`. Proved deviations of the code: `ignore_uniq` duplicates."
  },
  {
   "property": "C55",
   "status": "proved",
   "theorems": [
    "BaderKit.C55_oxidation",
    "BaderKit.C55_balance"
   ],
   "note": "Modelled in GridOps: oxidation states. sums."
  },
  {
   "property": "C56",
   "status": "partial",
   "theorems": [
    "BaderKit.C56_count",
    "BaderKit.C56_value",
    "BaderKit.C56_total_partial",
    "BaderKit.C56_antitone_partial",
    "BaderKit.C56_five_crash",
    "BaderKit.C56_index_crash",
    "BaderKit.C56_index_nearest",
    "BaderKit.C56_index_inside",
    "BaderKit.C56_cutoff",
    "BaderKit.C56_reported",
    "BaderKit.C56_cutoff_doc_wrong",
    "BaderKit.C56_none_wrong",
    "BaderKit.C56_directions",
    "BaderKit.C56_rank",
    "BaderKit.C56_chain_missed",
    "BaderKit.C56_session",
    "BaderKit.C56_session_raises",
    "BaderKit.C56_session_no_electrides",
    "BaderKit.C56_spin",
    "BaderKit.C56_at",
    "BaderKit.C56_cutoffs_partial"
   ],
   "note": "Modelled in `Model/BadelfDim.lean`: one evaluation, the bisection; `Model/ElectrideDims.lean`: mask, sites and cutoffs of a `Badelf`, the bisection with exceptions, the three getters with their fields, the maximum of two spin channels. `scipy.ndimage.label` is a function with the contract `IsLabelling`.. counting; bisection; rank of translations; the dimensionality only changes at values of voxels, so the threshold of C56_cutoff is the value of a voxel; invariant over sessions of reads. Proved deviations of the code: five directions raise (`C56_five_crash`); index at the end of an axis (`C56_index_crash`); cutoffs are lowest and not highest (`C56_cutoff_doc_wrong`); `None` is never returned (`C56_none_wrong`, `C56_session_no_electrides`); bent chains."
  },
  {
   "property": "C57",
   "status": "proved",
   "theorems": [
    "BaderKit.C57_compress_roots_interleaving"
   ],
   "note": "Modelled in CompressRoots: threads with program counters. invariant of every single read/write step."
  },
  {
   "property": "C58",
   "status": "partial",
   "theorems": [
    "BaderKit.C58_like_new_partial",
    "BaderKit.C58_private_copy",
    "BaderKit.C58_atom_avg_history",
    "BaderKit.C58_true_tolerance"
   ],
   "note": "Modelled in BaderState: histories. equality with a new object; `_partial`: except the two listed. Proved deviations of the code: `atom_avg` getter, `vacuum_tol=True`."
  },
  {
   "property": "C59",
   "status": "partial",
   "theorems": [
    "BaderKit.C59_fresh_partial",
    "BaderKit.C59_masks_raise",
    "BaderKit.C59_stale"
   ],
   "note": "Modelled in GridOps: cached data. state machine; `_partial`. Proved deviations of the code: spin parts and spline coefficients stale; the masks of maxima and minima import a module that does not exist (`C59_masks_raise`)."
  },
  {
   "property": "C60",
   "status": "proved",
   "theorems": [
    "BaderKit.C60_linear_add",
    "BaderKit.C60_linear_add_inverse"
   ],
   "note": "Modelled in GridOps: `linear_add`. ring."
  },
  {
   "property": "C61",
   "status": "partial",
   "theorems": [
    "BaderKit.C61_cubic_slice_partial",
    "BaderKit.C61_asymmetric"
   ],
   "note": "Modelled in GridOps: `cubic_slice`. modular arithmetic; `_partial`: size 1. Proved deviations of the code: box reaches one point up."
  },
  {
   "property": "C62",
   "status": "proved",
   "theorems": [
    "BaderKit.C62_simple",
    "BaderKit.C62_overdetermined"
   ],
   "note": "Modelled in Neargrid gradients. algebra."
  },
  {
   "property": "C63",
   "status": "proved",
   "theorems": [
    "BaderKit.C63_refine",
    "BaderKit.C63_vertex",
    "BaderKit.C63_clamp_wrong",
    "BaderKit.C63_clamp_axes",
    "BaderKit.C63_solver_fails",
    "BaderKit.C63_list"
   ],
   "note": "Modelled in `Model/Interp.lean`: the fit over the surrounding voxels, the solver (an exception for singular matrices), clamp, comparison with the values of the region, wrapping, the loop over the maxima.. case analysis on the solver; completing the square for the vertex (`C63_vertex`); the solver that raises leaves the maximum where it is (`C63_solver_fails`); the list in order (`C63_list`). Proved deviations of the code: the clamp uses the size of the wrong axis: `C63_clamp_wrong`, `C63_clamp_axes`."
  },
  {
   "property": "C64",
   "status": "proved",
   "theorems": [
    "BaderKit.C64_line"
   ],
   "note": "Modelled in Interp: line. algebra."
  },
  {
   "property": "C65",
   "status": "partial",
   "theorems": [
    "BaderKit.C65_images",
    "BaderKit.C65_kept",
    "BaderKit.C65_sorted_partial",
    "BaderKit.C65_unsorted_wrong",
    "BaderKit.C65_whole_cell_lost",
    "BaderKit.C65_metric_wrong",
    "BaderKit.C65_cubic",
    "BaderKit.C65_regions"
   ],
   "note": "Modelled in Voronoi: planes. half-space geometry; `_partial`. Proved deviations of the code: whole cell lost, wrong metric, sites not reordered."
  },
  {
   "property": "C66",
   "status": "partial",
   "theorems": [
    "BaderKit.C66_lookup_partial",
    "BaderKit.C66_close_missed"
   ],
   "note": "Modelled in Badelf: site lookup. algebra; `_partial`: sound. Proved deviations of the code: point close to a site missed."
  },
  {
   "property": "C67",
   "status": "proved",
   "theorems": [
    "BaderKit.C67_radius",
    "BaderKit.C67_consistent",
    "BaderKit.C67_value"
   ],
   "note": "Modelled in ElfRadii: bonds. canonical forms."
  },
  {
   "property": "C68",
   "status": "proved",
   "theorems": [
    "BaderKit.C68_direction",
    "BaderKit.C68_normal",
    "BaderKit.C68_zero"
   ],
   "note": "Modelled in `Model/GridOps.lean`: Cartesian vector of Miller indices.. cross product; the side the vector points to (`C68_direction`). Proved deviations of the code: zero indices give no direction (`C68_zero`)."
  },
  {
   "property": "C69",
   "status": "proved",
   "theorems": [
    "BaderKit.C69_images",
    "BaderKit.C69_faces"
   ],
   "note": "Modelled in Transforms tables. enumeration proved for all shapes."
  },
  {
   "property": "C70",
   "status": "proved",
   "theorems": [
    "BaderKit.C70_structure",
    "BaderKit.C70_data",
    "BaderKit.C70_vasp4_unreadable",
    "BaderKit.C70_wide_coordinate"
   ],
   "note": "Modelled in VaspFile: POSCAR part. list lemmas. Proved deviations of the code: vasp4 files unreadable; wide coordinates."
  },
  {
   "property": "C71",
   "status": "proved",
   "theorems": [
    "BaderKit.C71_vasp",
    "BaderKit.C71_cube",
    "BaderKit.C71_binary"
   ],
   "note": "Modelled in CubeFile/VaspFile: detection. character lemmas."
  },
  {
   "property": "C72",
   "status": "proved",
   "theorems": [
    "BaderKit.C72_round",
    "BaderKit.C72_infer",
    "BaderKit.C72_tiny_wrong",
    "BaderKit.C72_sample_wrong"
   ],
   "note": "Modelled in TextFormat: figures. rounding lemmas. Proved deviations of the code: tiny data; sampling."
  },
  {
   "property": "C73",
   "status": "proved",
   "theorems": [
    "BaderKit.C73_domain_rows_total",
    "BaderKit.C73_rows_are_domains",
    "BaderKit.C73_row_dimensionality",
    "BaderKit.C73_domains_are_rows",
    "BaderKit.C73_rows_disjoint",
    "BaderKit.C73_parents",
    "BaderKit.C73_min_below_max",
    "BaderKit.C73_childless_rows",
    "BaderKit.C73_irreducible_domains",
    "BaderKit.C73_children_split",
    "BaderKit.C73_single_basin_max_uninitialised",
    "BaderKit.C73_huge_values_ignored",
    "BaderKit.C73_dimension_computed",
    "BaderKit.C73_dimension_ge",
    "BaderKit.C73_tree_dimension"
   ],
   "note": "Modelled in DomainTree (with `levelDim`, the dimensionality from Groups). level invariants; identification with components of the threshold graph; the dimensionality composed with C46 over the solids of all values so far. Proved deviations of the code: childless root has no maximum; values from 1e12 on; dimensionality too high after two infinite regions join (C46)."
  },
  {
   "property": "C74",
   "status": "proved",
   "theorems": [
    "BaderKit.C74_most_contacts",
    "BaderKit.C74_surrounding_domains",
    "BaderKit.C74_chain_unique",
    "BaderKit.C74_nested_total",
    "BaderKit.C74_surrounded_by_nothing",
    "BaderKit.C74_listed_once",
    "BaderKit.C74_deep_nesting_raises",
    "BaderKit.C74_mutual_contact_raises"
   ],
   "note": "Modelled in AtomRows: `surroundLoop`. induction on fuel; relation `SurroundChain`. Proved deviations of the code: mutual contact and deep nesting raise."
  },
  {
   "property": "C75",
   "status": "partial",
   "theorems": [
    "BaderKit.C75_total",
    "BaderKit.C75_rows_are_pieces",
    "BaderKit.C75_one_row_at_a_value",
    "BaderKit.C75_empty_domain_kept",
    "BaderKit.C75_parents",
    "BaderKit.C75_atoms_at_birth",
    "BaderKit.C75_atom_count",
    "BaderKit.C75_atoms_partial",
    "BaderKit.C75_exchanged_atom_unnoticed",
    "BaderKit.C75_flat_root_loses_children"
   ],
   "note": "Modelled in AtomRows. loop invariant over values; `_partial`: atoms only leave. Proved deviations of the code: exchanged atoms unnoticed; flat root loses children."
  },
  {
   "property": "C76",
   "status": "proved",
   "theorems": [
    "BaderKit.C76_graph_of_rows",
    "BaderKit.C76_nodes_divide_basins",
    "BaderKit.C76_domains_divide_basins",
    "BaderKit.C76_graph_from_connections",
    "BaderKit.C76_clean_graph"
   ],
   "note": "Modelled in GraphBuild. composition of C73, C75, C44."
  },
  {
   "property": "C77",
   "status": "proved",
   "theorems": [
    "BaderKit.C77_first_check",
    "BaderKit.C77_second_check",
    "BaderKit.C77_groups_unique",
    "BaderKit.C77_mask",
    "BaderKit.C77_marked_iff",
    "BaderKit.C77_saddle_found_local",
    "BaderKit.C77_saddle_found",
    "BaderKit.C77_equal_value_hides"
   ],
   "note": "Modelled in Saddle: box scans with the union-find of C21. group counts = classes of touching voxels; a marked voxel from any two unconnected neighbours. Proved deviations of the code: equal values hide a saddle; groups of equal voxels count; voxels next to vacuum skipped."
  },
  {
   "property": "C78",
   "status": "proved",
   "theorems": [
    "BaderKit.C78_connections",
    "BaderKit.C78_sound",
    "BaderKit.C78_saddle_connected",
    "BaderKit.C78_every_basin",
    "BaderKit.C78_nonpositive_lost"
   ],
   "note": "Modelled in Connections: `find_domain_connections`. maximum over neighbours, folds. Proved deviations of the code: connections at non-positive values lost."
  },
  {
   "property": "C79",
   "status": "proved",
   "theorems": [
    "BaderKit.C79_regions_iff",
    "BaderKit.C79_basin_at",
    "BaderKit.C79_domains_are_regions",
    "BaderKit.C79_one_row_per_region",
    "BaderKit.C79_rows_are_regions",
    "BaderKit.C79_ongrid"
   ],
   "note": "Modelled in composition of Saddle, Connections, DomainTree, Ongrid. induction on the number of higher voxels; a path of basins for each path of voxels."
  },
  {
   "property": "C80",
   "status": "proved",
   "theorems": [
    "BaderKit.C80_shells",
    "BaderKit.C80_no_combine",
    "BaderKit.C80_covalent",
    "BaderKit.C80_covalent_neighbours",
    "BaderKit.C80_no_common_domain",
    "BaderKit.C80_lone_pairs_sound",
    "BaderKit.C80_lone_pairs_ionic",
    "BaderKit.C80_lone_pairs_covalent",
    "BaderKit.C80_bare",
    "BaderKit.C80_types",
    "BaderKit.C80_no_unassigned",
    "BaderKit.C80_basins_kept",
    "BaderKit.C80_every_atom",
    "BaderKit.C80_stale_neighbours"
   ],
   "note": "Modelled in Model/Marking (marking of cores, shells, bonds, lone pairs, bare electrons on the graph of Model/BifTree; positions, neighbours and radii are parameters). invariants of the loops over features and domains; each pass is local to the visited feature or keeps the types already given. Proved deviations of the code: without `combine_shells` shells have no effect; a bond without a common domain raises; late shells keep stale neighbours; the exception for untyped features is unreachable."
  },
  {
   "property": "C81",
   "status": "proved",
   "theorems": [
    "BaderKit.C81_every_schedule",
    "BaderKit.C81_serial",
    "BaderKit.C81_one_slab",
    "BaderKit.C81_only_domain",
    "BaderKit.C81_only_void",
    "BaderKit.C81_unlabelled_last",
    "BaderKit.C81_contacts",
    "BaderKit.C81_atom_group",
    "BaderKit.C81_vacuum_atom",
    "BaderKit.C81_lost_updates",
    "BaderKit.C81_schedule_decides"
   ],
   "note": "Modelled in Model/Contacts (get_connected_voids after the search for the groups, basin_domain_map, the group an atom starts in; every slab of the prange loop is a thread, an increment is a read and a write). invariant: counter plus increments left is at most the total, a value that was read likewise, and a counter that was written is positive; one-thread invariant; sums over slabs; C46 for the voids. Proved deviations of the code: lost updates change the result (C81_lost_updates: 2 instead of 96; C81_schedule_decides: exception); an atom in a vacuum voxel gets a wrong void index, possibly past the end (C81_vacuum_atom)."
  },
  {
   "property": "C82",
   "status": "partial",
   "theorems": [
    "BaderKit.C82_feature_files",
    "BaderKit.C82_all_features",
    "BaderKit.C82_add_up",
    "BaderKit.C82_sum_file",
    "BaderKit.C82_type_sum_file",
    "BaderKit.C82_by_type_partial",
    "BaderKit.C82_same_species",
    "BaderKit.C82_charge_not_written",
    "BaderKit.C82_str_directory",
    "BaderKit.C82_none_directory",
    "BaderKit.C82_spin_all",
    "BaderKit.C82_equal_all",
    "BaderKit.C82_spin_by_type_partial",
    "BaderKit.C82_equal_only_first",
    "BaderKit.C82_spin_sum",
    "BaderKit.C82_badelf_polarised",
    "BaderKit.C82_badelf_equal",
    "BaderKit.C82_badelf_sum",
    "BaderKit.C82_badelf_species"
   ],
   "note": "Modelled in Model/Exporters (file system as a map; write, rename, exceptions; the exporters of ElfLabeler, SpinElfLabeler and SpinBadelf). every call is reduced to a list of assignments of names; names are compared as character lists (digits contain no underscore); `_partial` by type: reference data, species different. Proved deviations of the code: reference instead of charge, colliding species, only the first type or temporary names with equal channels, text or missing directory, removed files, format ignored."
  },
  {
   "property": "C83",
   "status": "partial",
   "theorems": [
    "BaderKit.C83_order",
    "BaderKit.C83_charges",
    "BaderKit.C83_names",
    "BaderKit.C83_oxidation",
    "BaderKit.C83_polarised",
    "BaderKit.C83_equal_elf",
    "BaderKit.C83_total_partial",
    "BaderKit.C83_total_wrong",
    "BaderKit.C83_splitting_ignored"
   ],
   "note": "Modelled in Model/SpinLabels (combined structures, shortcut for equal ELF, oxidation states, charges in the dictionary); merge of C40. list lemmas; sums over voxels; `_partial`: the total is right exactly with different ELF or without net moment. Proved deviations of the code: moment added with equal ELF (C83_total_wrong); splitting ignored (C83_splitting_ignored)."
  },
  {
   "property": "C84",
   "status": "partial",
   "theorems": [
    "BaderKit.C84_edges",
    "BaderKit.C84_own_edges",
    "BaderKit.C84_surface_partial",
    "BaderKit.C84_no_surface",
    "BaderKit.C84_short",
    "BaderKit.C84_skewed_wrong"
   ],
   "note": "Modelled in Model/FeatureSurface (map from basins to features, edges, distances; schedule and uninitialised memory are parameters). C13 on the features of voxels; fold invariants of C49; norm estimate for the starting value; `_partial`: orthogonal cells for the average, short minima in any cell. Proved deviations of the code: skewed cells (C84_skewed_wrong); no surface (C84_no_surface)."
  },
  {
   "property": "C85",
   "status": "partial",
   "theorems": [
    "BaderKit.C85_smallest_radius",
    "BaderKit.C85_missing_site",
    "BaderKit.C85_no_neighbours",
    "BaderKit.C85_listed_features",
    "BaderKit.C85_sole_features_partial",
    "BaderKit.C85_shared_listed",
    "BaderKit.C85_sole_missing",
    "BaderKit.C85_max_values",
    "BaderKit.C85_max_raises",
    "BaderKit.C85_electrides",
    "BaderKit.C85_types_without_electrides"
   ],
   "note": "Modelled in Model/SiteData (radii of sites from neighbour data, features of sites, highest values, electrides per formula; argsort is any sorting permutation). first position in a sorted list; loop invariants with the list of what was added; `_partial`: neighbours with and without electrides agree in being one. Proved deviations of the code: missing site (C85_missing_site), shared features near electrides, exception for a site without feature, types without electrides."
  },
  {
   "property": "C86",
   "status": "proved",
   "theorems": [
    "BaderKit.C86_bonds",
    "BaderKit.C86_same_radius",
    "BaderKit.C86_within_tolerance",
    "BaderKit.C86_raises",
    "BaderKit.C86_distance_is_radius",
    "BaderKit.C86_distance_wrong",
    "BaderKit.C86_neighbour_missed"
   ],
   "note": "Modelled in Model/SymBonds (copying of bonds by symmetry operations, repeated rows, exception). C66 for the lookup; exact copies by floor lemmas; scaling of the root. Proved deviations of the code: reported bond length is the radius (C86_distance_wrong); neighbour not found goes unnoticed (C86_neighbour_missed)."
  },
  {
   "property": "C87",
   "status": "partial",
   "theorems": [
    "BaderKit.C87_extent",
    "BaderKit.C87_inside",
    "BaderKit.C87_some_lattice_point",
    "BaderKit.C87_nearest_partial",
    "BaderKit.C87_skewed_wrong"
   ],
   "note": "Modelled in Model/GridGeom (extent of a voxel, distances to the corners of the cell). convexity of the squared length along each edge; C41_inside for the planes. Proved deviations of the code: only the eight corners are compared: wrong in skewed cells (C87_skewed_wrong)."
  },
  {
   "property": "C88",
   "status": "partial",
   "theorems": [
    "BaderKit.C88_zero_flux_labels",
    "BaderKit.C88_nearest_shell",
    "BaderKit.C88_last_shell_lost",
    "BaderKit.C88_shells",
    "BaderKit.C88_badelf_electrides",
    "BaderKit.C88_badelf_planes",
    "BaderKit.C88_badelf_total_partial",
    "BaderKit.C88_voronelf_ignores_planes",
    "BaderKit.C88_voronelf_loses_shared",
    "BaderKit.C88_zero_flux_total",
    "BaderKit.C88_electrides_agree_partial",
    "BaderKit.C88_electrides_differ"
   ],
   "note": "Modelled in `_get_voxel_assignments` for all three methods on top of the models of the voxel assignment (C41), the feature labels (C43) and the splitting of features (C42), with `_zero_flux_feature_labels`, the radius, the filter of the transformations and the breaks (`Model/BadelfRun`). Given: features, basins, vacuum, planes; square root and sorts by contract.. Electrides: labels from `C88_zero_flux_labels`; the sequential part changes no site from `max_label` on (`badelfAssign_beyond`, induction over left-over and tied voxels). Shells: the sorted distances are split at the smallest distance with an atom; the break before the next distance is the first that counts (`C88_nearest_shell`). Totals from C41 and C42.. Proved deviations of the code: `C88_last_shell_lost`: the last shell has no break, so voxels decided only there are lost (total `_partial`). `C88_electrides_differ`: documentation says electrides agree, but shared features coordinated to an electride add charge in zero-flux. `C88_voronelf_ignores_planes`, `C88_voronelf_loses_shared`: the labels are not reset, so the planes are never used and shared features are written beyond the arrays.."
  },
  {
   "property": "C89",
   "status": "proved",
   "theorems": [
    "BaderKit.C89_few",
    "BaderKit.C89_shape",
    "BaderKit.C89_order",
    "BaderKit.C89_planar",
    "BaderKit.C89_wide_order"
   ],
   "note": "Modelled in `get_pt_ring_cage` with the unwrapping relative to the first maximum (`Model/PointRing`). The singular value decomposition is a parameter with the contract `IsSvd` (extreme spreads over unit vectors), shown to be satisfiable over the reals (`exists_svd`).. Unwrapping gives the given images up to one common translation; centring removes it; both singular values are characterised by the spreads, so the test on their ratio is a statement about planes.. Proved deviations of the code: `C89_wide_order`: wide sets depend on the order of the maxima. Three collinear maxima are a ring (`C89_few`).."
  },
  {
   "property": "C90",
   "status": "partial",
   "theorems": [
    "BaderKit.C90_neighbours_partial",
    "BaderKit.C90_opposite",
    "BaderKit.C90_orthogonal",
    "BaderKit.C90_fcc",
    "BaderKit.C90_skewed_wrong",
    "BaderKit.C90_unordered_corners"
   ],
   "note": "Modelled in `point_neighbor_voronoi_transforms`, `facet_area` (`Model/VoxelFacets`). `scipy.spatial.Voronoi` is a parameter with the contract `VoronoiAt` for the ridges of one point (faces, each once, corners in order), met by explicit ridges for the cubic grid (`cube_voronoi`).. A vector with natural coefficients on an obtuse superbase is split into levels; the leads of the levels add up to at most the lead of the vector (`lead_levels`), so the points within two steps cut out the whole cell and only sums of the superbase can be neighbours. The fan of triangles telescopes to the vector area (`shoelace_fan`).. Proved deviations of the code: `C90_skewed_wrong`: in a leaning cell a neighbour is missed and a wrong one is returned; hence `_partial`. `C90_unordered_corners`: corners out of order give a wrong area.."
  },
  {
   "property": "C91",
   "status": "partial",
   "theorems": [
    "BaderKit.C91_present_partial",
    "BaderKit.C91_settings_ignored",
    "BaderKit.C91_in_place_ignored",
    "BaderKit.C91_analyzer_hides_change"
   ],
   "note": "Modelled in The cache of `Structure` (`Model/SymCache`): settings, analyzer, data, saved tuple of site objects in a store. The analysis and the comparison of sites are parameters; the contract `SameAnalysis` says that sites found equal give equal analyses.. Invariant over histories: what is kept is the analysis of the saved objects with the present settings; fresh objects never touch saved ones.. Proved deviations of the code: Settings after a read (`C91_settings_ignored`), changes in place (`C91_in_place_ignored`), a read of the analyzer before the data (`C91_analyzer_hides_change`).."
  },
  {
   "property": "C92",
   "status": "partial",
   "theorems": [
    "BaderKit.C92_same_region_partial",
    "BaderKit.C92_never_smaller",
    "BaderKit.C92_cubic",
    "BaderKit.C92_all_atoms",
    "BaderKit.C92_atom_without_bonds",
    "BaderKit.C92_keys_collide",
    "BaderKit.C92_faces_lost",
    "BaderKit.C92_candidates",
    "BaderKit.C92_nearest_neighbours_lost"
   ],
   "note": "Modelled in `_get_plane_equations`, the choice of candidates, `site_ranges`, `get_planes_on_surface` with the shortcut over keys (`Model/PlaneSelect`). CrystalNN and `get_neighbor_list` are parameters; of the intersection of half spaces only the contract that every corner (extreme point) of a bounded region is listed is used; shown for the cube.. A minimal set of half spaces with the same intersection exists; each of its planes holds an open piece of the boundary, so by Krein-Milman at least three corners (`three_corners`); affine symmetries map corners to corners.. Proved deviations of the code: Keys that collide (`C92_keys_collide`, `C92_faces_lost`), candidates in fractional coordinates (`C92_nearest_neighbours_lost`). An error of the intersection enters the debugger (`breakpoint()`).."
  },
  {
   "property": "C93",
   "status": "proved",
   "theorems": [
    "BaderKit.C93_position",
    "BaderKit.C93_shift_zero",
    "BaderKit.C93_same_shape",
    "BaderKit.C93_finer",
    "BaderKit.C93_charge_whole_factors",
    "BaderKit.C93_spline_keeps_sum",
    "BaderKit.C93_charge_and_origin_lost",
    "BaderKit.C93_shape",
    "BaderKit.C93_grid",
    "BaderKit.C93_elf_split_wrong"
   ],
   "note": "Modelled in `regrid` (`Model/Regrid`). `scipy.ndimage.zoom` is modelled by its documentation (size of an axis, coordinate that is read); the interpolation of the requested order is a parameter, with the spline of C33 as instance.. Algebra of the coordinates; sums over a refined axis regrouped by residue; the weights of C33 sum to one, so translates of the spline keep the sum.. Proved deviations of the code: Displacement by half the difference of the voxel widths (`C93_position`, `C93_shift_zero`, `C93_finer`), charge and origin (`C93_charge_and_origin_lost`), kind of data (`C93_elf_split_wrong`).."
  },
  {
   "property": "C94",
   "status": "proved",
   "theorems": [
    "BaderKit.C94_values",
    "BaderKit.C94_at_grid_points",
    "BaderKit.C94_unknown_method"
   ],
   "note": "Modelled in `values_at`, `value_at`, `Interpolator`, `interpolate_points` with uninitialised memory and a schedule (`Model/Regrid`).. Fold invariant; C33 to C35 at grid points.. Proved deviations of the code: Unknown names return the memory (`C94_unknown_method`).."
  },
  {
   "property": "C95",
   "status": "partial",
   "theorems": [
    "BaderKit.C95_structure",
    "BaderKit.C95_begins_with_electrides",
    "BaderKit.C95_badelf_partial",
    "BaderKit.C95_ghost_atoms_dropped",
    "BaderKit.C95_unordered",
    "BaderKit.C95_numbers_shift"
   ],
   "note": "Modelled in `Model/FeatureSites.lean`: `get_feature_structure`, `get_feature_structure_by_index`, `electride_structure` of graph and labeler, `labeled_structure`, `structure`, `electride_structure`, `nelectrides` of `Badelf`.. List lemmas on the order of C43: the bare electrons come first, all symbols of features are dummies, filters keep exactly the atoms.. Proved deviations of the code: Atoms with the symbol of a feature are dropped from the structure of `Badelf` (`C95_ghost_atoms_dropped`, `C95_numbers_shift`); without the order by type the structures are not aligned (`C95_unordered`).."
  },
  {
   "property": "C96",
   "status": "proved",
   "theorems": [
    "BaderKit.C96_read",
    "BaderKit.C96_text_fails",
    "BaderKit.C96_write_read",
    "BaderKit.C96_write_text"
   ],
   "note": "Modelled in `Model/Commands.lean`: `Grid.from_dynamic`, `Grid.write`; readers, writers and detection are given.. Case analysis over the format argument; the round trip uses that written files are recognised (C71).. Proved deviations of the code: A format given as a string always fails when reading (`C96_text_fails`).."
  },
  {
   "property": "C97",
   "status": "partial",
   "theorems": [
    "BaderKit.C97_run",
    "BaderKit.C97_tolerance",
    "BaderKit.C97_normalize_ignored",
    "BaderKit.C97_label",
    "BaderKit.C97_badelf_other_files",
    "BaderKit.C97_badelf_fails",
    "BaderKit.C97_selection",
    "BaderKit.C97_selection_ints",
    "BaderKit.C97_no_selection",
    "BaderKit.C97_split",
    "BaderKit.C97_split_names_partial",
    "BaderKit.C97_split_names_wrong",
    "BaderKit.C97_regrid_names"
   ],
   "note": "Modelled in `Model/Commands.lean`: keyword arguments of the constructors, the commands `run`, `badelf`, `label`, `split`, names of `regrid`, the parsing of selections.. Keyword lookup is evaluated for every argument; selections by induction over the list of words; names by a lemma on `strip`.. Proved deviations of the code: `badelf` ignores its files (`C97_badelf_other_files`, `C97_badelf_fails`), `--normalize-vacuum` has no effect, no selection is one empty word (`C97_no_selection`), names of `split` and `regrid` can coincide (`C97_split_names_wrong`, `C97_regrid_names`).."
  },
  {
   "property": "C98",
   "status": "proved",
   "theorems": [
    "BaderKit.C98_table",
    "BaderKit.C98_atoms",
    "BaderKit.C98_sum",
    "BaderKit.C98_basins",
    "BaderKit.C98_refused"
   ],
   "note": "Modelled in `Model/Tables.lean`: columns of the data frames, width of a column, header, rows and footer of `write_atom_tsv` and `write_basin_tsv`; the fixed format with five decimals digit by digit; pandas keeps columns and order.. Splitting at tabs undoes joining; padding is removed by `strip`; digits parse back to the rounded number; errors add up.. Proved deviations of the code: none."
  },
  {
   "property": "C99",
   "status": "partial",
   "theorems": [
    "BaderKit.C99_bader_partial",
    "BaderKit.C99_bader_potcar",
    "BaderKit.C99_badelf",
    "BaderKit.C99_spin_badelf",
    "BaderKit.C99_badelf_oxidation",
    "BaderKit.C99_splitting_ignored",
    "BaderKit.C99_elf",
    "BaderKit.C99_splitting_wrong",
    "BaderKit.C99_spin_missing"
   ],
   "note": "Modelled in `Model/Summaries.lean`: `to_dict` and `to_json` of the five classes over a table of results by name; kinds of values and `json.dumps` as the condition that no array or object is left; oxidation states; charges of `ElfLabeler` by the model of C42.. The collected keys are distinct, so every result is found once; conversions evaluated by kind; oxidation states through C55.. Proved deviations of the code: `Bader.to_json` with a POTCAR (`C99_bader_potcar`), the ignored splitting method (`C99_splitting_ignored`, `C99_splitting_wrong`), missing results of `SpinElfLabeler` (`C99_spin_missing`).."
  },
  {
   "property": "C100",
   "status": "partial",
   "theorems": [
    "BaderKit.C100_values",
    "BaderKit.C100_edit",
    "BaderKit.C100_shared_array",
    "BaderKit.C100_derived_partial",
    "BaderKit.C100_copy",
    "BaderKit.C100_sum_stale",
    "BaderKit.C100_edit_stale",
    "BaderKit.C100_flag_partial",
    "BaderKit.C100_flag_stale"
   ],
   "note": "Modelled in `Model/GridObjects.lean`: a memory of arrays, grid objects with addresses, flag and caches; constructor, `copy`, `linear_add`, setters, edits in place, reads of cached attributes.. Refinement: the memory agrees with a session on values and no address is used twice, by induction over the session.. Proved deviations of the code: shared arrays (`C100_shared_array`), stale derived quantities of sums and edits (`C100_sum_stale`, `C100_edit_stale`), the flag (`C100_flag_stale`).."
  },
  {
   "property": "C101",
   "status": "partial",
   "theorems": [
    "BaderKit.C101_sum",
    "BaderKit.C101_sum_refused",
    "BaderKit.C101_convert_partial",
    "BaderKit.C101_convert_spin_lost"
   ],
   "note": "Modelled in `Model/FileTools.lean`: the commands `sum` and `convert` over given readers and writers; the sum of two grids by the model of C60.. C96 for reading and writing, C60 for the values.. Proved deviations of the code: spin lost by `convert` (`C101_convert_spin_lost`).."
  },
  {
   "property": "C102",
   "status": "proved",
   "theorems": [
    "BaderKit.C102_serial",
    "BaderKit.C102_completes",
    "BaderKit.C102_conflict",
    "BaderKit.C102_edges",
    "BaderKit.C102_pointers",
    "BaderKit.C102_inside",
    "BaderKit.C102_planes",
    "BaderKit.C102_wrapped",
    "BaderKit.C102_rows",
    "BaderKit.C102_scatter"
   ],
   "note": "Modelled in `Model/Parallel.lean`: iterations as trees of single reads and writes, run by an arbitrary interleaving; the loops of `get_edges`, `get_steepest_pointers`, the first loop of BadELF, the two loops over planes (with the barrier between them), loops over rows and loops that write at given indices.. an invariant over every interleaving: private entries are those the iteration alone would leave, flags are set iff some iteration sets them; the results are linked to the sequential models (`getEdges`, `steepestPointers`, `inLabels`, `wrapVoronoi`).. Proved deviations of the code: none in these loops; loops that do race are treated in C22, C57 and C81. Memory is sequentially consistent.."
  },
  {
   "property": "C103",
   "status": "partial",
   "theorems": [
    "BaderKit.C103_vacuum",
    "BaderKit.C103_tolerance",
    "BaderKit.C103_ongrid_partial",
    "BaderKit.C103_neargrid_partial",
    "BaderKit.C103_weight",
    "BaderKit.C103_wrong_atom",
    "BaderKit.C103_other_vacuum",
    "BaderKit.C103_neargrid_weight_partial",
    "BaderKit.C103_neargrid_weight_vacuum",
    "BaderKit.C103_weight_order"
   ],
   "note": "Modelled in `Model/BaderRun.lean`: the vacuum mask and its count, the composition maxima, clean-up, method (ongrid, neargrid, weight), charges and volumes of the basins, rounded getters, atoms, rounded totals.. composition of C09, C12, C16, C17, C18, C22, C23 and C24 with an error bound for the rounding; the vacuum on the reference grid is shown to satisfy the hypothesis on the mask used there.. Proved deviations of the code: with merged maxima the ongrid and neargrid labels are not in the order of the reported maxima, so atoms exchange their basins (`C103_wrong_atom`); with `use_reference_vacuum=False` (used by the ELF labeler) voxels below a vacuum voxel get the last basin (`C103_other_vacuum`). `neargrid-weight` (`Model/BaderRunNW.lean`, on C50): totals are wrong with a vacuum (`C103_neargrid_weight_vacuum`) or touching maxima. The refinement of the position of a maximum is a parameter.."
  },
  {
   "property": "C104",
   "status": "proved",
   "theorems": [
    "BaderKit.C104_count",
    "BaderKit.C104_reduced",
    "BaderKit.C104_formula",
    "BaderKit.C104_badelf_run",
    "BaderKit.C104_spin",
    "BaderKit.C104_spin_totals",
    "BaderKit.C104_features",
    "BaderKit.C104_labeler"
   ],
   "note": "Modelled in `Model/ElectrideCount.lean`: the getters of `Badelf`, `SpinBadelf` and `ElfLabeler` that add up charges; factor and text of the formula are given.. sums of lists with an error bound for the rounding; composition with C88 (BadELF run), C40 (merged sites of two channels), C76 and C12 (features).. Proved deviations of the code: a missing charge is an exception (`C104_count`)."
  },
  {
   "property": "C105",
   "status": "partial",
   "theorems": [
    "BaderKit.C105_reads_partial",
    "BaderKit.C105_test_raises",
    "BaderKit.C105_unfinished",
    "BaderKit.C105_half_marked",
    "BaderKit.C105_no_graph",
    "BaderKit.C105_first_answer",
    "BaderKit.C105_settings_ignored",
    "BaderKit.C105_badelf_partial",
    "BaderKit.C105_badelf_after_exception",
    "BaderKit.C105_method_ignored",
    "BaderKit.C105_settings_mixed",
    "BaderKit.C105_method_mixed"
   ],
   "note": "Modelled in `Model/ElfState.lean`: the lazily filled fields of `ElfLabeler` (graph, neighbour data, radii with and without electrides) and of `Badelf` (planes, results) as a state machine; the steps of the labelling (C33, C76, C79 and others) are parameters that may raise and may change the graph before they raise.. invariant on the stored fields for arbitrary sessions.. Proved deviations of the code: exceptions are reported once, settings and method changed after a read give stale or mixed results: `C105_test_raises`, `C105_unfinished`, `C105_half_marked`, `C105_badelf_after_exception`, `C105_settings_ignored`, `C105_settings_mixed`, `C105_method_mixed`, `C105_method_ignored`."
  },
  {
   "property": "C106",
   "status": "partial",
   "theorems": [
    "BaderKit.C106_atoms_partial",
    "BaderKit.C106_radius_shows_hidden",
    "BaderKit.C106_visible_restored",
    "BaderKit.C106_table_shows_hidden",
    "BaderKit.C106_lattice",
    "BaderKit.C106_surfaces_partial",
    "BaderKit.C106_surfaces_restored",
    "BaderKit.C106_stale_surface",
    "BaderKit.C106_limits_stale",
    "BaderKit.C106_band_stale",
    "BaderKit.C106_range",
    "BaderKit.C106_picture_partial",
    "BaderKit.C106_picture_shows_hidden",
    "BaderKit.C106_caps_missing",
    "BaderKit.C106_flat_data"
   ],
   "note": "Modelled in `Model/Plotter.lean`: the settings of `StructurePlotter`, `GridPlotter` and `BaderPlotter` and the actors of the window as a state machine with one step per setter; `contour`, `extract_surface` and `contour_banded` of pyvista are parameters.. invariants for arbitrary sessions; direct computation for single assignments from arbitrary states.. Proved deviations of the code: setters update only part of the window: `C106_radius_shows_hidden`, `C106_table_shows_hidden`, `C106_stale_surface`, `C106_limits_stale`, `C106_band_stale`, `C106_picture_shows_hidden`, `C106_caps_missing`, `C106_flat_data`. Not modelled: background, axes, projection, exports to html, the Qt window.."
  },
  {
   "property": "C107",
   "status": "partial",
   "theorems": [
    "BaderKit.C107_boundary_atoms",
    "BaderKit.C107_outline",
    "BaderKit.C107_slice_plane",
    "BaderKit.C107_slice_negative",
    "BaderKit.C107_slice_atoms",
    "BaderKit.C107_slice_uncut",
    "BaderKit.C107_camera",
    "BaderKit.C107_up",
    "BaderKit.C107_opposite_view",
    "BaderKit.C107_values",
    "BaderKit.C107_enclosed_partial",
    "BaderKit.C107_hidden_shown",
    "BaderKit.C107_atom_order"
   ],
   "note": "Modelled in `Model/PlotGeometry.lean`: images at the boundary, outline, points and masked values, camera, slices over an ordered field with a square root; cosine and sine of the rotation are two numbers with squares adding to one; `d_hkl` of pymatgen is the inverse length of the reciprocal vector.. case analysis and vector identities (`ring`, Cauchy-Schwarz); the normal is expressed by the reciprocal vector, which gives its side.. Proved deviations of the code: `C107_slice_negative`, `C107_opposite_view` (normal on the wrong side, see `C68_direction`), `C107_hidden_shown`, `C107_slice_uncut`, `C107_atom_order`.."
  },
  {
   "property": "C108",
   "status": "proved",
   "theorems": [
    "BaderKit.C108_drawn",
    "BaderKit.C108_boxes_apart",
    "BaderKit.C108_no_crossing",
    "BaderKit.C108_axis",
    "BaderKit.C108_legend",
    "BaderKit.C108_exceptions"
   ],
   "note": "Modelled in `Model/GraphPlot.lean`: `get_plot` up to plotly: heights by the recursive function over the graph of C44 (with fuel), scaling, lines, circles, boxes, legend flags, axis; colours, hover texts and title left out; `round(x, 4)` is a monotone function.. induction over the recursion with an invariant on the set of placed nodes (heights in an interval of the counter, leaves consecutive, subtrees separated).. Proved deviations of the code: a reducible node without children gives not-a-number heights; a widened box can leave the axis (C108_exceptions).."
  },
  {
   "property": "C109",
   "status": "partial",
   "theorems": [
    "BaderKit.C109_positions",
    "BaderKit.C109_caller_arrays",
    "BaderKit.C109_lists_raise",
    "BaderKit.C109_cartesian_partial",
    "BaderKit.C109_cartesian_wrong",
    "BaderKit.C109_labels_ignored",
    "BaderKit.C109_insert",
    "BaderKit.C109_shared_properties",
    "BaderKit.C109_merge_raises"
   ],
   "note": "Modelled in `Model/StructureBuild.lean`: constructor, `insert`, `labels` setter, `merge_frac_coords` of `Structure`; arrays are rows of a store, dictionaries entries of a store; the pymatgen constructor and `insert` are external.. fold over the rows; `mod1` facts; case analysis.. Proved deviations of the code: in-place wrapping of the arrays of the caller; lists raise; Cartesian coordinates wrong (C109_cartesian_wrong); labels setter without effect; shared dictionary; merging raises.."
  },
  {
   "property": "C110",
   "status": "partial",
   "theorems": [
    "BaderKit.C110_agree",
    "BaderKit.C110_rerun",
    "BaderKit.C110_rerun_lattice",
    "BaderKit.C110_unsorted",
    "BaderKit.C110_sets",
    "BaderKit.C110_exact",
    "BaderKit.C110_atom_box",
    "BaderKit.C110_species_box",
    "BaderKit.C110_species_color",
    "BaderKit.C110_species_radius",
    "BaderKit.C110_species_radius_same",
    "BaderKit.C110_lattice_drawn",
    "BaderKit.C110_drawn_partial",
    "BaderKit.C110_radius_shows_hidden"
   ],
   "note": "Modelled in `Model/Gui.lean`: the controls of the tabs, the plot of C106 and the visible basins as a state machine with one step per click or edit; Qt check boxes, spin boxes (monotone idempotent rounding) and pickers are external and described by their contracts.. invariant over events (settings after every assignment), reduction of events to sessions of C106 for what is drawn.. Proved deviations of the code: controls that are not set again after a second result (`C110_rerun`, `C110_rerun_lattice`); rows of unsorted structures (`C110_unsorted`); hidden atoms with a new radius (`C110_radius_shows_hidden`); a species radius that is entered unchanged (`C110_species_radius_same`). Not modelled: background, projection, camera, layout.."
  },
  {
   "property": "C111",
   "status": "partial",
   "theorems": [
    "BaderKit.C111_result",
    "BaderKit.C111_safe_partial",
    "BaderKit.C111_button",
    "BaderKit.C111_empty_enabled",
    "BaderKit.C111_failed_then_press",
    "BaderKit.C111_edit_then_press",
    "BaderKit.C111_raised_stuck",
    "BaderKit.C111_export_plain",
    "BaderKit.C111_export_extension",
    "BaderKit.C111_export_dotted_directory",
    "BaderKit.C111_export_only_extension",
    "BaderKit.C111_export_cancelled",
    "BaderKit.C111_export_data_partial",
    "BaderKit.C111_export_wrong_grid"
   ],
   "note": "Modelled in `Model/GuiRun.lean`: fields, button, thread and result of the run tab as a state machine, the outcome of a run is a function of its inputs; `export_basins` with names as lists of characters.. induction over events; case analysis on names.. Proved deviations of the code: `C111_empty_enabled`, `C111_failed_then_press`, `C111_edit_then_press`, `C111_raised_stuck`, `C111_export_wrong_grid`, `C111_export_dotted_directory`, `C111_export_only_extension`, `C111_export_cancelled`. Trusted: Qt ends the process when a `QThread` whose thread runs is destroyed.."
  },
  {
   "property": "C112",
   "status": "partial",
   "theorems": [
    "BaderKit.C112_session",
    "BaderKit.C112_reported_partial",
    "BaderKit.C112_button",
    "BaderKit.C112_refused",
    "BaderKit.C112_stale",
    "BaderKit.C112_fit_partial",
    "BaderKit.C112_cut",
    "BaderKit.C112_diagonal",
    "BaderKit.C112_window",
    "BaderKit.C112_margin",
    "BaderKit.C112_off_centre"
   ],
   "note": "Modelled in `Model/Camera.lean`: setters of view indices, rotation and position, the button of the window, as a state machine over `get_camera_position_from_miller` of C107; `reset_camera` is external and keeps the line of sight; `_set_camera_tight` with exact arithmetic, nan as an exception of `round`.. invariant over the session; bounds of a projected box; sign analysis.. Proved deviations of the code: `C112_button`, `C112_stale`, `C112_cut`, `C112_diagonal`, `C112_off_centre`, `C112_margin`.."
  },
  {
   "property": "C113",
   "status": "proved",
   "theorems": [
    "BaderKit.C113_atoms",
    "BaderKit.C113_electrides",
    "BaderKit.C113_centre",
    "BaderKit.C113_species",
    "BaderKit.C113_species_value",
    "BaderKit.C113_own_image",
    "BaderKit.C113_own_image_e",
    "BaderKit.C113_sites",
    "BaderKit.C113_plot",
    "BaderKit.C113_stale",
    "BaderKit.C113_no_plot"
   ],
   "note": "Modelled in `Model/Coordination.lean`: the getters `coord_indices`, `coord_indices_e`, `coord_species` with what they store, the type setter, the electride structures and the hover texts of `get_plot`; `CrystalNN.get_nn_info` and `nearest_atom` are parameters (contract where needed: the search names only sites it was given). `atom_dists`, the other lines of the hover text and the internal assignments of the labeler to `_coord_indices` (`C33`) are outside.. Invariant over sessions: a stored list is never changed and the types follow the assignments; position of a bare feature in the filtered list by induction; fold invariant for the plot.. Proved deviations of the code: Stored lists go stale (`C113_stale`); a feature that is its own neighbour makes the species and the plot raise (`C113_no_plot`).."
  },
  {
   "property": "C114",
   "status": "proved",
   "theorems": [
    "BaderKit.C114_same_iff",
    "BaderKit.C114_ends_iff",
    "BaderKit.C114_pair",
    "BaderKit.C114_ends",
    "BaderKit.C114_rising",
    "BaderKit.C114_units",
    "BaderKit.C114_ripple",
    "BaderKit.C114_zero",
    "BaderKit.C114_undefined"
   ],
   "note": "Modelled in `Model/SameMax.lean`: the test of a pair of maxima on the interpolated values between them (distance, minima, peaks, relative depth); the values come from `linear_slice` (C28) and the positions of the maxima are parameters.. membership and sortedness of the filtered lists, then equivalence with a specification that speaks of dips and peaks; explicit profiles for the exceptions; `C114_pair`: exactly when a pair is united.. Proved deviations of the code: `C114_ripple`, `C114_zero`, `C114_undefined`.."
  },
  {
   "property": "C115",
   "status": "partial",
   "theorems": [
    "BaderKit.C115_gradients",
    "BaderKit.C115_run_partial",
    "BaderKit.C115_vacuum",
    "BaderKit.C115_charges",
    "BaderKit.C115_neargrid_unit",
    "BaderKit.C115_neargrid_weight_partial",
    "BaderKit.C115_neargrid_weight_charges_partial",
    "BaderKit.C115_neargrid_weight_order"
   ],
   "note": "Modelled in `Model/BaderRun.lean` as for C103, run on two reference grids or three charge grids with the same parameters (`RunAid`, e.g. the test of C114, which is invariant under scaling by `C114_units` and not under an offset by `C114_zero`).. Every comparison in the run is shown to be invariant under a strictly monotone or affine map, all folds by relations between two or three states. Neargrid-weight (`Props/RunUnitsNW.lean`): the rows of the edge voxels are invariant; charges by the flow equations of C50, which are linear and have one solution.. Proved deviations of the code: `C115_neargrid_unit`: the limit 1e-30 of `neargrid` is absolute; hence `C115_run_partial` asks that no gradient crosses it. `C115_neargrid_weight_order`: charges of neargrid-weight are not additive, as the charge decides the order of the edge voxels; `C115_neargrid_weight_charges_partial` where both densities rise with the reference.."
  },
  {
   "property": "C116",
   "status": "partial",
   "theorems": [
    "BaderKit.C116_basins_partial",
    "BaderKit.C116_atoms_partial",
    "BaderKit.C116_plateau",
    "BaderKit.C116_merged",
    "BaderKit.C116_neargrid_weight_partial",
    "BaderKit.C116_neargrid_partial",
    "BaderKit.C116_weight_partial",
    "BaderKit.C116_weight"
   ],
   "note": "Modelled in `Model/BaderRun.lean` as for C103, run twice: once as given, once on grids whose values sit at the voxels moved by a whole-voxel shift, with independent schedules, sort orders and candidates.. Specification `OriginMoved`, `SameBasins`, `SiteMoved` in `Props/Origin.lean`. The move is a bijection of voxels that commutes with neighbour steps; steepest ascents are carried over, and the groups of maxima are characterised without reference to voxel order. The neargrid method (`Props/OriginNeargrid.lean`): pointers, stored gradients, near-grid trajectories (with visited voxels and left-over offsets), edge voxels and the set of refined voxels are carried over for every gradient field that moves along, in particular both gradients of the library (`gradMoved_simple`, `gradMoved_over`). The neargrid-weight method (`Props/OriginNW.lean`): the flow equations of C50 are carried over and have one solution.. Proved deviations of the code: `C116_plateau` (a flat shoulder gives one basin or two) and `C116_merged` (atoms exchange charges), and `C116_weight` (weight method, flux credited to a wrong basin), all by a move of the origin; the weight method by C120 with the identity as matrix (`Props/OriginWeight.lean`), visiting voxels in the order of the code (`RunInput.sortedVoxels`); hence the positive theorems are `_partial`.."
  },
  {
   "property": "C117",
   "status": "proved",
   "theorems": [
    "BaderKit.C117_domains_total",
    "BaderKit.C117_unsurrounded",
    "BaderKit.C117_quiet",
    "BaderKit.C117_graph",
    "BaderKit.C117_total",
    "BaderKit.C117_nodes_are_regions",
    "BaderKit.C117_node_dimension",
    "BaderKit.C117_node_atoms",
    "BaderKit.C117_outside_labelled",
    "BaderKit.C117_atom_in_node",
    "BaderKit.C117_schedule_exists",
    "BaderKit.C117_meets_above_min",
    "BaderKit.C117_any_order",
    "BaderKit.C117_surroundings",
    "BaderKit.C117_atom_number",
    "BaderKit.C117_values"
   ],
   "note": "Modelled in `Model/FromLabeler.lean`: `from_labeler` from the grid, labels and maxima to the nodes, before the clean-up (C45-C48): saddle masks, connections, `np.unique`, domains, values, voids and contacts at each value, early stop, rows, nodes. `labeler.bader` and the reading of the settings are inputs (`LabelerIn`); schedules, never-written cells, square root and bounds on rounds are the `Machine`.. The theorems of C46, C73, C75-C79 and C81 are chained; what each part needs (connected grid, distinct rows, values that are values of the grid, the stop that changes nothing, every voxel outside the void in exactly one current domain) is proved about the part before it. A concrete grid with two basins meets all hypotheses and yields a graph.. Proved deviations of the code: Hypotheses `MeetsAboveMin` (refuted without it: `C75_flat_root_loses_children`) and that the search around the atoms ends (C75: two finite groups that point at each other raise).."
  },
  {
   "property": "C118",
   "status": "proved",
   "theorems": [
    "BaderKit.C118_to_dict_pure",
    "BaderKit.C118_from_dict_once",
    "BaderKit.C118_consumed",
    "BaderKit.C118_shallow_copy",
    "BaderKit.C118_two_dicts",
    "BaderKit.C118_shared_options",
    "BaderKit.C118_radii_lost",
    "BaderKit.C118_json",
    "BaderKit.C118_json_options_apart",
    "BaderKit.C118_contains_key",
    "BaderKit.C118_contains_raises",
    "BaderKit.C118_stale_node"
   ],
   "note": "Modelled in `Model/GraphDict.lean`: the dictionaries as objects in a memory (nodes, graphs, options), `to_dict`, `from_dict` with the entries it removes or replaces, `dict(d)`, `to_json`, `from_json`, `__eq__` and `__contains__`. Text of the structure and JSON of the options are parameters.. The round trip of C45 lifted to the memory; which addresses each call touches, by induction over the nodes. Membership by induction over the list.. Proved deviations of the code: The behaviour that the names do not suggest is part of the statement and proved: `C118_consumed`, `C118_shallow_copy`, `C118_shared_options`, `C118_radii_lost`, `C118_contains_raises`, `C118_stale_node`.."
  },
  {
   "property": "C119",
   "status": "partial",
   "theorems": [
    "BaderKit.C119_repeats_partial",
    "BaderKit.C119_density_partial",
    "BaderKit.C119_tiled",
    "BaderKit.C119_plateau",
    "BaderKit.C119_atoms_partial",
    "BaderKit.C119_halfway",
    "BaderKit.C119_neargrid_weight",
    "BaderKit.C119_neargrid",
    "BaderKit.C119_weight_partial",
    "BaderKit.C119_weight"
   ],
   "note": "Modelled in The whole run of `Model/BaderRun.lean`, twice: `RunInput.run` with the ongrid and with the weight method for the cell and for the block; `makeSupercell` of `Model/GridOps.lean` for the grids the library makes itself.. Folding the block onto the cell commutes with the neighbour steps, so local maxima, steepest steps and ascents fold and lift. Moving the block by whole cells is a change of origin (C116), so with the unique ascent of C09 each basin of the block is one copy. Sums over basins by bijections; the atoms by uniqueness of the nearest image. Weight method: the shares of a copy in all copies of a basin add up to the share in the basin, by induction from high to low, and moves by whole cells make the copies equal.. Proved deviations of the code: Full claim false: `C119_plateau`, `C119_halfway`, `C119_weight`; `C119_tiled` for `make_supercell`. Proved where maxima are peaked and apart, atoms in orthogonal cells with one nearest atom; weight method where its shares solve the flux equations. False for neargrid (`C119_neargrid`, `Props/SupercellNeargrid.lean`: sharp maxima, the gradient of the library, and other charges in the block) and neargrid-weight (`C119_neargrid_weight`, `Props/SupercellNW.lean`).."
  },
  {
   "property": "C120",
   "status": "partial",
   "theorems": [
    "BaderKit.C120_basins_partial",
    "BaderKit.C120_atoms_partial",
    "BaderKit.C120_equivalent_atoms_partial",
    "BaderKit.C120_tie",
    "BaderKit.C120_neargrid_weight_partial",
    "BaderKit.C120_neargrid_partial",
    "BaderKit.C120_neargrid_axes",
    "BaderKit.C120_weight_partial",
    "BaderKit.C120_weight"
   ],
   "note": "Modelled in The whole run of `Model/BaderRun.lean`, twice: `RunInput.run` with the ongrid, the neargrid and the weight method before and after the operation.. Carried voxels are a bijection that commutes with the neighbour steps; without ties the first steepest neighbour in the list is the only steepest neighbour, so the order of the list does not matter and ascents are carried along. Sums over basins by the bijection; atoms by uniqueness of the nearest image under a map that keeps distances. Weight method: the flux equations have one solution, by induction from high to low, so shares are carried along. Neargrid (`Props/SymmetryNeargrid.lean`): rounding half to even is odd and acts on each component, so pointers, trajectories with their offsets, edges and refined voxels are carried along by signed permutations of the axes. Neargrid-weight (`Props/SymmetryNW.lean`): the rows of the edge voxels go to permuted rows, so the flow equations of C50 are carried along.. Proved deviations of the code: Full claim false: `C120_tie`, `C120_weight`. Proved where voxels have one steepest neighbour and maxima are peaked and apart, atoms in orthogonal cells with one nearest atom; weight method where its shares solve the flux equations. Neargrid (`C120_neargrid_partial`) only for operations that carry grid axes to grid axes: rounding and division by the largest component do not commute with other integer matrices, and `C120_neargrid_axes` shows that results then differ; the neargrid-weight method (`C120_neargrid_weight_partial`) under the same restriction, where charge and reference rise together and the charge is positive.."
  },
  {
   "property": "C121",
   "status": "partial",
   "theorems": [
    "BaderKit.C121_nearest_partial",
    "BaderKit.C121_short",
    "BaderKit.C121_species",
    "BaderKit.C121_defined",
    "BaderKit.C121_skewed_wrong",
    "BaderKit.C121_outside_wrong"
   ],
   "note": "Modelled in `Model/FeatureNearest.lean`: the getters of an irreducible node, on `mergeFrac` (C51), `distsToAtoms` (C36) and `argmin` (C24).. The centre lies in the unit cell, so one of the 27 images is nearest in an orthogonal cell; elsewhere the norm estimate of C36. First smallest entry of the list.. Proved deviations of the code: `_partial`: orthogonal cells; `C121_short` for the others; false in general: `C121_skewed_wrong`, `C121_outside_wrong`."
  },
  {
   "property": "C122",
   "status": "proved",
   "theorems": [
    "BaderKit.C122_one_file_each",
    "BaderKit.C122_all_files",
    "BaderKit.C122_union_file",
    "BaderKit.C122_species_file",
    "BaderKit.C122_source_format_lost",
    "BaderKit.C122_badelf_inverted",
    "BaderKit.C122_badelf_all_raises",
    "BaderKit.C122_raises"
   ],
   "note": "Modelled in `Model/VolumeFiles.lean`: the exporters of `Bader` and `Badelf` with the files of C82: names, arrays, format, structure.. Loops of assignments to distinct names; membership of labels in lists; for `Badelf` an induction over the loop that zeroes one array.. Proved deviations of the code: The source format and the second array are lost per basin, per atom and for unions (`C122_source_format_lost`); `Badelf` zeroes the atom instead of keeping it (`C122_badelf_inverted`); `Badelf.write_all_atom_volumes` calls a method that does not exist (`C122_badelf_all_raises`); `C122_raises`.."
  }
 ]
}