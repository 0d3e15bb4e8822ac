{"id": "C01", "title": "Periodic wrapping of voxel coordinates", "statement": "For a voxel inside the grid and a step of at most one cell in each direction, wrapping the stepped coordinate always yields the unique in-range coordinate congruent to it modulo the grid shape; the variant that also reports the crossed boundary returns a shift s with coordinate = wrapped + s*n. Outside the window -n <= i < 2n wrapping must not be relied on (it can return an out-of-range index).", "quantifier": "all grid shapes, all voxels, all integer offsets with -n <= i < 2n on each axis; and the existence of a failing case outside the window", "why_tests_cant": "The shape and offsets are unbounded integers; tests only see a few grids.", "anchors": ["src/baderkit/core/utilities/basic.py:wrap_point", "src/baderkit/core/utilities/basic.py:wrap_point_w_shift"]}
{"id": "C02", "title": "Flat index and 3D coordinate are inverse", "statement": "Converting a 3D voxel coordinate to the flat index and back is the identity, in both directions, the flat index is in range, and C-order enumeration of the grid visits the flat indices 0..N-1 in increasing order.", "quantifier": "all grid shapes with positive sides, all in-range coordinates, all in-range flat indices", "why_tests_cant": "Quantifies over all shapes and indices.", "anchors": ["src/baderkit/core/utilities/basic.py:flat_to_coords", "src/baderkit/core/utilities/basic.py:coords_to_flat"]}
{"id": "C03", "title": "Union-find maintains exactly the generated equivalence relation", "statement": "After any sequence of finds (with or without path compression) and unions starting from singletons, two elements have the same root iff they are connected by the requested unions; finding a root always terminates, returns a fixed point, and path halving changes nobody's root.", "quantifier": "all sizes, all finite histories of find/union calls", "why_tests_cant": "Ranges over all operation histories.", "anchors": ["src/baderkit/core/utilities/union_find.py:find_root", "src/baderkit/core/utilities/union_find.py:find_root_no_compression", "src/baderkit/core/utilities/union_find.py:union", "src/baderkit/core/utilities/union_find.py:compress_roots"]}
{"id": "C04", "title": "UnionFind groups partition the elements", "statement": "The toolkit UnionFind object grows on demand; after any sequence of unions the reported groups are pairwise disjoint, cover every allocated element, and two elements share a group iff they are connected by the unions performed. The set of groups is the same whatever the visiting order. The bulk call is an exception: with at least one pair it never leaves a usable object; it raises or stores None, and with two or more pairs it raises after uniting at most the first.", "quantifier": "all finite sequences of union calls on arbitrary non-negative indices; all lists of pairs for the bulk call", "why_tests_cant": "All histories and index patterns.", "anchors": ["src/baderkit/core/toolkit/union_finder.py:UnionFind"]}
{"id": "C05", "title": "Shift-tracking union-find keeps consistent periodic positions", "statement": "In the shift-tracking union-find every element's accumulated offset to its root equals the position difference implied by the shifts of the unions performed: for any assignment of positions that is consistent with all union requests, position(root) = position(x) + accumulated offset, whatever path halving and union-by-size did.", "quantifier": "all sizes, all finite histories of find/union_with_shift calls, all integer shifts", "why_tests_cant": "All histories; path compression order depends on the history.", "anchors": ["src/baderkit/core/utilities/union_find.py:find_root_with_shift", "src/baderkit/core/utilities/union_find.py:find_root_with_shift_no_compression", "src/baderkit/core/utilities/union_find.py:union_with_shift"]}
{"id": "C06", "title": "Root mask counts connected components", "statement": "With union_w_roots / union_with_shift, after any history, an element that has taken part in a merge is marked in the root mask iff it is the current root of its set, so counting marked entries counts the multi-element sets.", "quantifier": "all finite histories of unions", "why_tests_cant": "All histories.", "anchors": ["src/baderkit/core/utilities/union_find.py:union_w_roots", "src/baderkit/core/utilities/union_find.py:union_with_shift"]}
{"id": "C07", "title": "Steepest neighbour choice", "statement": "The best-neighbour search returns a neighbour of the voxel that is strictly higher and has the largest slope among all neighbours (first in list order on ties); it returns the voxel itself with a zero step iff no neighbour is strictly higher.", "quantifier": "all grid shapes, all data, all voxels, all neighbour lists with positive distances", "why_tests_cant": "All data values and shapes.", "anchors": ["src/baderkit/core/bader/methods/shared_numba.py:get_best_neighbor"]}
{"id": "C08", "title": "Local maxima mask is exact", "statement": "A voxel is reported as a local maximum iff it is not vacuum and none of its periodic neighbours is strictly higher (lower for minima); the result does not depend on the order in which voxels are visited, and a grid with a non-vacuum voxel and upward-closed non-vacuum region has at least one maximum.", "quantifier": "all grid shapes, data, vacuum masks, visiting orders", "why_tests_cant": "All data and all parallel schedules.", "anchors": ["src/baderkit/core/bader/methods/shared_numba.py:get_maxima"]}
{"id": "C09", "title": "Ongrid assigns every non-vacuum voxel to the maximum reached by steepest ascent", "statement": "In the ongrid method every non-vacuum voxel ends with the label of the maximum reached by repeatedly following the steepest neighbour, the ascent being strictly increasing until that maximum, and vacuum voxels end with -1.", "quantifier": "all grids, all data, all vacuum masks given by a threshold on the same data, all voxels", "why_tests_cant": "Unbounded ascent length, all data.", "anchors": ["src/baderkit/core/bader/methods/ongrid/ongrid_numba.py:get_steepest_pointers", "src/baderkit/core/bader/methods/ongrid/ongrid_method.py:OngridMethod._run_bader"]}
{"id": "C10", "title": "Pointer jumping terminates and computes roots", "statement": "Repeated pointer doubling terminates for every acyclic pointer array, every entry ends at the root reached by following the original pointers one at a time, vacuum entries stay -1 and running it again changes nothing. If a non-vacuum entry points at a vacuum entry the result is wrong (index -1 is read as the last voxel).", "quantifier": "all pointer arrays whose chains end in self-pointing roots; existence of failure when a chain enters the vacuum", "why_tests_cant": "Number of rounds depends on data.", "anchors": ["src/baderkit/core/bader/methods/base.py:MethodBase.get_roots"]}
{"id": "C11", "title": "Basin labels are exactly 0..M-1 and vacuum is -1", "statement": "After ranking the roots, every non-vacuum voxel label lies in 0..M-1 where M is the number of distinct roots, every label in that range is used, two voxels share a label iff they have the same root, and exactly the vacuum voxels are -1.", "quantifier": "all root arrays with or without vacuum", "why_tests_cant": "All label patterns.", "anchors": ["src/baderkit/core/bader/methods/ongrid/ongrid_method.py:OngridMethod._run_bader", "src/baderkit/core/bader/methods/neargrid/neargrid_method.py"]}
{"id": "C12", "title": "Charge and volume conservation of basin integration", "statement": "The basin charges plus vacuum charge equal the mean of the charge grid (sum/N), the basin volumes plus vacuum volume equal the cell volume, and each basin's value is exactly the sum over the voxels carrying its label.", "quantifier": "all grids, all charge data, all label arrays with labels in -1..M-1", "why_tests_cant": "All data and labels.", "anchors": ["src/baderkit/core/bader/methods/shared_numba.py:get_basin_charges_and_volumes"]}
{"id": "C13", "title": "Basin edges are exact and symmetric", "statement": "A voxel is reported as an edge iff it is non-vacuum and some non-vacuum periodic neighbour carries a different label; if the neighbour list is closed under negation the witnessing neighbour is an edge too; the result is independent of the visiting order.", "quantifier": "all grids, labels, vacuum masks, neighbour lists, visiting orders", "why_tests_cant": "All labelings and parallel schedules.", "anchors": ["src/baderkit/core/bader/methods/shared_numba.py:get_edges"]}
{"id": "C14", "title": "Flat false maxima are all found", "statement": "The iterative clean-up marks as false exactly those reported maxima from which a chain of equal-valued reported maxima leads to a voxel that is not a reported maximum but is not lower; it terminates, never marks a strict isolated maximum, and every connected plateau is either kept or removed as a whole.", "quantifier": "all grids, data, reported maxima sets", "why_tests_cant": "Plateaus can be arbitrarily large; iteration count is data dependent.", "anchors": ["src/baderkit/core/bader/methods/shared_numba.py:initialize_labels_from_maxima"]}
{"id": "C15", "title": "Each merged maximum has a representative of the highest value in its group", "statement": "After merging, each group of maxima is represented by one of its own members whose value is the highest in the group; the group labels all point to that representative, every voxel not a maximum stays unlabelled, adjacent maxima are always in the same group, and the number of returned coordinates equals the number of groups.", "quantifier": "all grids, data, maxima, and all outcomes of the interpolation test", "why_tests_cant": "The interpolation outcome is a black box; all data.", "anchors": ["src/baderkit/core/bader/methods/shared_numba.py:initialize_labels_from_maxima"]}
{"id": "C16", "title": "Maximum list order matches basin labels", "statement": "Entry b of the reported maxima coordinates is the maximum of the voxels labelled b. This holds for the weight method, which re-sorts; for ongrid/neargrid it can fail because maxima are ordered by union root while labels are ranked by representative.", "quantifier": "all runs; existence of a run violating it for ongrid", "why_tests_cant": "Needs a specific plateau across the periodic boundary.", "anchors": ["src/baderkit/core/bader/methods/shared_numba.py:initialize_labels_from_maxima", "src/baderkit/core/bader/methods/ongrid/ongrid_method.py:OngridMethod._run_bader", "src/baderkit/core/bader/methods/weight/weight_numba.py:sort_maxima_frac"]}
{"id": "C17", "title": "Weight method conserves charge and volume", "statement": "The weight method's basin charges sum to the total charge of the non-vacuum voxels and basin volumes to the number of non-vacuum voxels, for every interleaving of the parallel phases, including the weight cut-off and the cap on the number of stored weights.", "quantifier": "all grids, data, charges, neighbour lists with positive facet weights, maxima groupings, sorted orders", "why_tests_cant": "Weights are propagated along arbitrarily long chains of edge voxels.", "anchors": ["src/baderkit/core/bader/methods/weight/weight_numba.py:get_weight_assignments"]}
{"id": "C18", "title": "Weight method processes higher neighbours first and labels every voxel", "statement": "Whenever an edge voxel is assigned, all neighbours it receives weights from were assigned before; afterwards every non-vacuum voxel carries a valid basin index and vacuum voxels are untouched.", "quantifier": "all grids and data with the sorted order high to low", "why_tests_cant": "Depends on global order of all voxels.", "anchors": ["src/baderkit/core/bader/methods/weight/weight_numba.py:get_weight_assignments", "src/baderkit/core/bader/methods/weight/weight_method.py:WeightMethod._run_bader"]}
{"id": "C19", "title": "Weight method sends flux to the basin the neighbour belongs to", "statement": "An edge voxel's normalised flux towards basin b equals the share of flux to its higher neighbours that belong to b. The code compares a stale variable, the label of the neighbour looked at last for the lowest voxel, so flux may be credited to another basin. If a higher neighbour of the lowest voxel is itself shared by several basins, those listed before it belong to one basin, and voxel number 0 is not shared, the equations hold for every voxel; where voxel 0 is shared, flux of its neighbours can be credited to it.", "quantifier": "all grids and data; existence of a violating run", "why_tests_cant": "Needs a particular stale value at the end of an earlier loop.", "anchors": ["src/baderkit/core/bader/methods/weight/weight_numba.py:get_weight_assignments"]}
{"id": "C20", "title": "Neargrid pointers strictly increase", "statement": "Every non-maximum non-vacuum voxel gets a pointer to an in-range voxel with strictly higher data, whatever the gradient and rounding gave, so the pointer graph is acyclic and its roots are maxima.", "quantifier": "all grids, data, lattice matrices", "why_tests_cant": "All gradients and data.", "anchors": ["src/baderkit/core/bader/methods/neargrid/neargrid_numba.py:get_gradient_pointers_simple"]}
{"id": "C21", "title": "Neargrid refinement climb terminates at a maximum", "statement": "From any voxel the refinement climb reaches a maximum after finitely many steps, for any gradient field, if the non-vacuum region is upward closed; the number of non-ongrid steps is bounded by the number of voxels. If the vacuum mask is unrelated to the data the climb can run forever.", "quantifier": "all grids, data, gradient fields, start voxels", "why_tests_cant": "Path-dependent loop with memory of visited voxels.", "anchors": ["src/baderkit/core/bader/methods/neargrid/neargrid_numba.py:refine_fast_neargrid"]}
{"id": "C22", "title": "Neargrid refinement visits each voxel at most once and is schedule independent", "statement": "Through all refinement rounds, each voxel is refined at most once, the rounds terminate, vacuum voxels are untouched, labels stay in range up to sign, and the final result does not depend on the order in which the voxels of a round are processed.", "quantifier": "all grids, initial labels, refinement masks, all processing orders in each round", "why_tests_cant": "Parallel schedule and data dependent number of rounds.", "anchors": ["src/baderkit/core/bader/methods/neargrid/neargrid_numba.py:refine_fast_neargrid"]}
{"id": "C23", "title": "Atom charges and volumes sum to basin totals", "statement": "Aggregating basins to atoms preserves totals: sum of atom charges = sum of basin charges, same for volumes, each atom receives exactly its basins, voxel atom labels agree with the basin's atom, and vacuum voxels get no atom.", "quantifier": "all basin lists, all atom assignments, all label grids", "why_tests_cant": "All assignments.", "anchors": ["src/baderkit/core/bader/bader.py:run_atom_assignment", "src/baderkit/core/bader/bader.py:assign_basins_to_structure"]}
{"id": "C24", "title": "Basins are assigned to the nearest atom image", "statement": "Each basin maximum is assigned to an atom at minimal distance among the considered periodic images and the reported distance is that minimum. With component-wise rounding this is minimal for orthogonal cells but not for skewed ones.", "quantifier": "all structures, all maxima", "why_tests_cant": "All geometries.", "anchors": ["src/baderkit/core/bader/bader.py:assign_basins_to_structure"]}
{"id": "C25", "title": "Derived Bader results never go stale", "statement": "Whatever sequence of setter calls and property reads is performed, every property read that returns a value returns the one computed from the current settings, never one computed from an earlier setting.", "quantifier": "all finite histories of setter calls and property reads", "why_tests_cant": "Ranges over all histories.", "anchors": ["src/baderkit/core/bader/bader.py:Bader._reset_properties", "src/baderkit/core/bader/bader.py: property setters"]}
{"id": "C26", "title": "Exported basin/atom volumes partition the data", "statement": "The grids written for all basins plus vacuum sum to the original data at every voxel, each exported grid equals the data on the selected voxels and zero elsewhere. For the Badelf exporter the selected atom is zeroed instead. (The files are C122.)", "quantifier": "all data, label grids, selections", "why_tests_cant": "All labelings.", "anchors": ["src/baderkit/core/bader/bader.py:write_basin_volumes", "src/baderkit/core/badelf/badelf.py:write_atom_volumes"]}
{"id": "C27", "title": "VASP grid block round trip", "statement": "Writing sets of 3D data as VASP blocks and reading them back yields the same sets to eleven digits, with their augmentation text, for every shape and whatever the internal chunk size; total_only gives exactly the first set. It fails when numbers do not fit the column (the block window is cut and a value is misread), augmentation given as one string (what the reader returns) is broken into characters, and spin-orbit data are written as five sets of which only the total is read back.", "quantifier": "all shapes up to five digits, all data, any number of sets, all chunk sizes; existence of violating data", "why_tests_cant": "All shapes including those not divisible by 5, all data.", "anchors": ["src/baderkit/core/utilities/file_parsers.py:read_vasp", "src/baderkit/core/utilities/file_parsers.py:write_vasp", "src/baderkit/core/utilities/file_parsers.py:write_vasp_data"]}
{"id": "C28", "title": "Fortran-style number formatting is faithful", "statement": "The text written for a number reads back as the number to eleven digits and has the fixed column width. It fails for values whose mantissa rounds up to the next power of ten and for three-digit exponents.", "quantifier": "all values in the representable range; existence of a violating value", "why_tests_cant": "All values.", "anchors": ["src/baderkit/core/utilities/file_parsers.py:format_fortran", "src/baderkit/core/utilities/file_parsers.py:write_vasp_data"]}
{"id": "C29", "title": "Cube file round trip", "statement": "Writing a cube file and reading it back restores shape, cell, elements, charges, positions and, at every point, the density to six digits. It fails with an origin (the atoms come back shifted), the caller's origin is scaled in place, negative values below 1e-99 leave no blank so that the file cannot be read, and the order of the values is not the Gaussian convention, so that files of other programs are read with axes exchanged.", "quantifier": "all shapes, cells, atoms, charges and data that fit the columns; existence of violating data", "why_tests_cant": "All shapes and data.", "anchors": ["src/baderkit/core/utilities/file_parsers.py:read_cube", "src/baderkit/core/utilities/file_parsers.py:write_cube"]}
{"id": "C30", "title": "Spin splitting is exact", "statement": "Splitting a total/difference grid gives up and down grids with up+down = total and up-down = difference at every voxel, and recombining restores the input.", "quantifier": "all grids", "why_tests_cant": "All data.", "anchors": ["src/baderkit/core/toolkit/grid.py:split_to_spin"]}
{"id": "C31", "title": "Coordinate conversions are inverse", "statement": "Fractional, voxel and Cartesian conversions are mutually inverse for every invertible lattice and every positive grid shape.", "quantifier": "all lattices with non-zero determinant, all shapes, all coordinates", "why_tests_cant": "All lattices.", "anchors": ["src/baderkit/core/toolkit/grid.py:frac_to_cart", "src/baderkit/core/toolkit/grid.py:cart_to_frac", "src/baderkit/core/toolkit/grid.py:grid_to_frac", "src/baderkit/core/toolkit/grid.py:frac_to_grid", "src/baderkit/core/toolkit/grid.py:grid_to_cart", "src/baderkit/core/toolkit/grid.py:cart_to_grid"]}
{"id": "C32", "title": "Supercell data is the periodic tiling", "statement": "The supercell grid value at index p equals the original value at p modulo the original shape, and the supercell total divided by number of points equals the original's; total charge scales with the number of cells and cached geometric data match the new cell. The last two fail: the data are not rescaled, the cached voxel volume is kept and spin data raise half-way.", "quantifier": "all grids, all scaling triples", "why_tests_cant": "All shapes and scalings.", "anchors": ["src/baderkit/core/toolkit/grid.py:make_supercell"]}
{"id": "C33", "title": "Cubic B-spline weights are a partition of unity", "statement": "For every fractional offset the four spline weights are non-negative and sum to one, hence the interpolated value lies between the smallest and largest of the coefficients used and interpolating constant coefficients returns the constant; interpolation is periodic.", "quantifier": "all offsets in [0,1), all coefficient grids, all points", "why_tests_cant": "Continuum of inputs.", "anchors": ["src/baderkit/core/utilities/interpolation.py:cubic_bspline_weights", "src/baderkit/core/utilities/interpolation.py:interp_spline"]}
{"id": "C34", "title": "Trilinear interpolation is exact on grid points and bounded", "statement": "Linear interpolation returns the data at grid points, is exact for functions affine within the cell, lies between min and max of the eight corner values and is periodic for points within two cells of the origin; farther out the reads are out of bounds.", "quantifier": "all grids, all points with -2n <= i < 2n", "why_tests_cant": "Continuum of inputs.", "anchors": ["src/baderkit/core/utilities/interpolation.py:interp_linear"]}
{"id": "C35", "title": "B-spline and nearest interpolation are lattice periodic", "statement": "Nearest and spline interpolation give the same value at points that differ by a lattice translation. Nearest interpolation fails at points half-way between grid points when the axis has an odd number of points.", "quantifier": "all grids, points, integer translations", "why_tests_cant": "Continuum of inputs.", "anchors": ["src/baderkit/core/utilities/interpolation.py:interp_nearest", "src/baderkit/core/utilities/interpolation.py:interp_spline"]}
{"id": "C36", "title": "Nearest-neighbour search over periodic images is the minimum", "statement": "The nearest-neighbour distance reported per atom is the minimum over all other atoms and the 27 images (capped by the initial value) and the reported neighbour attains it; in an orthogonal cell it is the minimum over the infinite crystal, which fails in strongly skewed cells.", "quantifier": "all structures", "why_tests_cant": "All geometries.", "anchors": ["src/baderkit/core/utilities/coord_env.py:get_atom_nearest_neighbors"]}
{"id": "C37", "title": "Two nearest atoms of a feature", "statement": "The covalent check's running selection holds, after any number of atoms/images, the three smallest distances seen in order together with their atoms.", "quantifier": "all lists of candidate distances", "why_tests_cant": "Unbounded candidate lists.", "anchors": ["src/baderkit/core/utilities/coord_env.py:check_covalent"]}
{"id": "C38", "title": "Canonical displacement is direction independent", "statement": "A displacement and its negative have the same canonical form, lattice translations do not change it away from half-cell ties, and a canonical bond is the same for both directions of the bond. At half-cell ties translations change the form, and the chosen representative depends on the order of the symmetry operations.", "quantifier": "all displacement vectors and tolerances", "why_tests_cant": "Continuum of inputs, tie cases.", "anchors": ["src/baderkit/core/utilities/voronoi.py:get_canonical_displacement", "src/baderkit/core/utilities/voronoi.py:get_canonical_bond"]}
{"id": "C39", "title": "Volume fraction under a plane is a fraction", "statement": "The fraction of a voxel under a plane is, to 12 decimals, the volume of the part of the unit cube under the plane; it is between 0 and 1, monotone in the offset, and the two sides of a plane add to 1. The degenerate zero-normal branch is inverted.", "quantifier": "all normals and offsets", "why_tests_cant": "Continuum of inputs.", "anchors": ["src/baderkit/core/utilities/voronoi.py:cube_fraction_under_plane"]}
{"id": "C40", "title": "Spin-resolved Badelf totals", "statement": "The combined charges total the sum of both spin channels and the combined volumes their average. A spin-up site has its own charge plus those of the spin-down sites equal to it (and to no earlier site); the charges of the other spin-down sites follow, in the order in which the combined electride structure lists the sites. Identical channels double every charge and keep every volume.", "quantifier": "all pairs of per-spin results, all site lists, every site equality that respects the species", "why_tests_cant": "All lengths and alignments.", "anchors": ["src/baderkit/core/badelf/badelf_spin.py:_get_charges_and_volumes", "src/baderkit/core/badelf/badelf_spin.py:electride_structure"]}
{"id": "C41", "title": "Badelf fractional voxel assignment conserves charge", "statement": "A voxel lies at the point i/nx, j/ny, k/nz of the cell. A voxel inside an atom's region goes to the first such atom. A voxel cut by planes is split between the atoms of its neighbourhood and its charge is distributed completely: shares are non-negative and add up to one. This fails when a voxel matches no site (charge lost), and tie handling uses a previous voxel's data.", "quantifier": "all grids, lattices, plane lists, labellings", "why_tests_cant": "All data; parallel phases.", "anchors": ["src/baderkit/core/badelf/badelf_numba.py:get_badelf_assignments"]}
{"id": "C42", "title": "ELF feature charges are fully distributed to atoms", "statement": "With the methods equal, pauling, dist and weighted_dist every site receives from every feature exactly its share (an electride keeps its own charge, a feature with one coordinated atom gives it everything, others are divided in proportion to the weights), and the total is preserved up to the final rounding. Not so: 'nearest' uses the position in the neighbour list as the atom index, a feature without neighbours raises, and 'pauling' gives more to the more electronegative atom, contrary to the documentation.", "quantifier": "all feature lists, coordination lists, distances, methods", "why_tests_cant": "All lists.", "anchors": ["src/baderkit/core/labelers/elf_labeler/elf_labeler.py:get_charges_and_volumes"]}
{"id": "C43", "title": "Feature labels relabel exactly the requested features", "statement": "In the feature label grid a voxel carries the index of the appended site iff its basin belongs to that feature, all other voxels keep their atom, vacuum stays -1, bare electron sites precede the others, and returned charges sum to the basin total.", "quantifier": "all basin maps, feature lists", "why_tests_cant": "All labelings.", "anchors": ["src/baderkit/core/labelers/elf_labeler/elf_labeler.py:get_feature_labels"]}
{"id": "C44", "title": "Bifurcation tree operations keep the tree well formed", "statement": "After any sequence of creating, removing and collapsing nodes the graph is a forest: links consistent in both directions, keys unique, roots exactly the parentless nodes, no cycles. Removal hands the children to the grandparent, collapsing removes exactly the nodes below and keeps key, parent and basins; ancestor and descendant queries terminate and are inverse; the irreducible nodes always have the basins of the roots, also after the clean-up of a new graph. Not so: the clean-up raises with two reducible roots; setting a parent inside the own subtree is accepted and ancestors never end; collapsing an only child leaves the parent with a wrong highest value; a depth once read is never refreshed; depth_to_infinite raises for a finite root.", "quantifier": "all trees, all finite sequences of operations", "why_tests_cant": "All histories.", "anchors": ["src/baderkit/core/labelers/bifurcation_graph/nodes.py"]}
{"id": "C45", "title": "Tree serialisation round trip", "statement": "Serialising any well formed bifurcation graph to a dictionary and back succeeds and restores nodes, order, links and attributes, and a second serialisation gives the same dictionary; the leaf feature type and the distance beyond the atoms are lost, the order of roots and children may change.", "quantifier": "all trees", "why_tests_cant": "All trees.", "anchors": ["src/baderkit/core/labelers/bifurcation_graph/graph.py:to_dict", "src/baderkit/core/labelers/bifurcation_graph/graph.py:from_dict", "src/baderkit/core/labelers/bifurcation_graph/nodes.py:IrreducibleNode.to_dict"]}
{"id": "C46", "title": "Connected groups equal periodic connectivity", "statement": "For solids that grow from call to call (lowering thresholds), every call succeeds, two voxels of the solid have the same root exactly when they are connected, up to a lattice translation, in the infinite crystal, and the list of roots has one member per group. The dimensionality of a group is the number of independent lattice translations of its network in a single call and in any sequence of calls in which no two infinite groups are joined; it is never too low. When two infinite groups are joined it is too high (two sheets joined by a bridge are given four dimensions). A vacuum voxel inside the solid joins groups on both sides, and with one voxel along an axis the call fails.", "quantifier": "all grid shapes with at least two voxels per axis, all growing sequences of masks, all symmetric neighbour lists; existence of the three violations", "why_tests_cant": "All masks and all histories of masks.", "anchors": ["src/baderkit/core/labelers/bifurcation_graph/graph_numba/bifurcation_base.py:get_connected_groups", "src/baderkit/core/labelers/bifurcation_graph/graph_numba/bifurcation_base.py:find_periodic_cycles", "src/baderkit/core/labelers/bifurcation_graph/graph_numba/bifurcation_base.py:get_domain_dimensionality"]}
{"id": "C47", "title": "The ELF radius is an extremum on the bond", "statement": "Along a sampled bond the radius is put at the covalent maximum nearest the middle, else at the minimum nearest the point where the line leaves the atom, refined without leaving the neighbouring samples and without a worse value; the fraction lies strictly between 0 and 1 for any data. A vacuum label is taken for the last feature.", "quantifier": "all splines, label functions, bonds, numbers of samples and refinement steps", "why_tests_cant": "Number of steps and data arbitrary.", "anchors": ["src/baderkit/core/labelers/elf_labeler/elf_radii_numba.py:get_elf_radius_frac"]}
{"id": "C48", "title": "Small shift/neighbour encodings are bijective", "statement": "The encodings of image shifts and neighbour transforms as small integers are injective and invertible on the documented range, and the table of connections lists each pair of adjacent transforms exactly once.", "quantifier": "all shifts in the encoded range, all box sizes", "why_tests_cant": "Claimed for every entry and size.", "anchors": ["src/baderkit/core/labelers/bifurcation_graph/graph_numba/bifurcation_base.py:shift_to_index", "src/baderkit/core/labelers/bifurcation_graph/graph_numba/bifurcation_base.py:index_to_shift", "src/baderkit/core/labelers/bifurcation_graph/graph_numba/bifurcation_base.py:trans_to_idx"]}
{"id": "C49", "title": "Surface distances come from the basin's own edge voxels", "statement": "The minimum/average surface distance of basin b is the minimum/average over edge voxels labelled b. For BadELF sites the voxels at the border of the vacuum never count; for atoms and basins of a Bader run they do, and vacuum edge voxels (label -1) are wrongly added to the last basin. A BadELF site without a surface is reported at twice the longest lattice vector.", "quantifier": "all label grids and edge masks; existence of violating input", "why_tests_cant": "All labelings.", "anchors": ["src/baderkit/core/bader/methods/shared_numba.py:get_min_avg_surface_dists"]}
{"id": "C50", "title": "Neargrid-weight conservation", "statement": "The neargrid-weight method conserves charge and volume if charge and reference data rise together and no edge voxel is a maximum of the reference. Otherwise it does not: each edge voxel that is a maximum loses at least its own charge and volume, charge pushed onto an edge voxel that is already processed (reference and charge ordered differently) is lost, and the vacuum charge is reported without the division by the number of grid points, the vacuum volume as a number of voxels. For the whole run from the search of the maxima this means: it ends, labels and charges do not depend on the order of processing, and with positive charges that rise with the reference the totals are complete exactly if no maximum touches a voxel of another basin. The charge of each basin is then determined by flow equations with one solution: an edge voxel holds its own charge and its parts of what other edge voxels hold, a basin gets the charges of its inner voxels and its parts of what the edge voxels hold; likewise for volumes.", "quantifier": "all grids, labellings, edge masks, weights; existence of violating runs", "why_tests_cant": "Depends on two independent orders over all voxels.", "anchors": ["src/baderkit/core/bader/methods/neargrid_weight/neargrid_weight_numba.py:get_edge_charges_volumes", "src/baderkit/core/bader/methods/neargrid_weight/neargrid_weight_numba.py:get_interior_basin_charges_and_volumes", "src/baderkit/core/bader/methods/neargrid_weight/neargrid_weight_method.py:NeargridWeightMethod"]}
{"id": "C51", "title": "Merged coordinates lie in the cell and respect periodicity", "statement": "Merging fractional coordinates returns a point in [0,1)^3, equal to the wrapped input for a single point, and independent of adding lattice vectors to any input other than in exact half-cell ties. The voxel proposed for a group of maxima is within half a voxel of the merged coordinate along each axis.", "quantifier": "all non-empty coordinate lists", "why_tests_cant": "Continuum of inputs.", "anchors": ["src/baderkit/core/utilities/basic.py:merge_frac_coords", "src/baderkit/core/utilities/basic.py:merge_frac_coords_weighted"]}
{"id": "C52", "title": "Transforms in radius are complete for orthogonal cells and sorted", "statement": "All returned offsets are within the radius, sorted by distance, listed once, closed under negation; for orthogonal lattices every offset within the radius is returned; for strongly skewed lattices some are missed.", "quantifier": "all lattices, radii, shapes; existence of a skewed lattice with a missed offset", "why_tests_cant": "Continuum of inputs.", "anchors": ["src/baderkit/core/utilities/basic.py:get_transforms_in_radius"]}
{"id": "C53", "title": "Labels of connected regions are periodic components", "statement": "Grid.label gives label 0 exactly to the zero voxels, the same label to two nonzero voxels exactly when a path of nonzero voxels connects them in the infinite periodic crystal (steps of the given structuring element, all 26 neighbours by default), and numbers the regions without gaps. With structure=None and an array without a zero voxel it raises an exception.", "quantifier": "all integer arrays and masks, all shapes (also length 1), all symmetric structuring elements, all component labellers that satisfy the scipy contract", "why_tests_cant": "All masks, regions that cross the boundary any number of times.", "anchors": ["src/baderkit/core/toolkit/grid.py:label"]}
{"id": "C54", "title": "Site relabelling is unique and order preserving", "statement": "Relabelled site names are unique, numbered from 1 in structure order within each label. When unique labels are kept as they are (ignore_uniq) two sites can get the same name.", "quantifier": "all structures", "why_tests_cant": "All lists.", "anchors": ["src/baderkit/core/toolkit/structure.py:relabel_sites"]}
{"id": "C55", "title": "Oxidation states balance", "statement": "Sum over atoms of oxidation state equals the total valence electrons minus total atom charge.", "quantifier": "all structures and charges", "why_tests_cant": "All lists.", "anchors": ["src/baderkit/core/bader/bader.py:get_oxidation_from_potcar"]}
{"id": "C56", "title": "Electride dimensionality from voxel connectivity", "statement": "The dimensionality of an electride is determined by the number of the 13 directions in which a site is connected to its periodic image inside the mask (0: 0, 1: 1, 2-4: 2, more than 5: 3), the result is the maximum over the sites, and a higher cutoff never raises it. The list of reported dimensionalities falls strictly, starts at cutoff 0, and each cutoff is within 2^-16 + 5e-5 of the highest ELF value of an electride voxel at which the dimensionality is still larger. The getters of the dimensionality, the lists and (for two spin channels, the larger of the two) answer the same in every order of reads; if the calculation raises, each read raises again. Exactly five connected directions, and a site that rounds to the end of an axis, raise an exception; the cutoffs are the lowest and not, as documented, the highest values; without electrides the result is not the documented None. The reported dimensionality never exceeds the number of independent lattice directions along which the network really repeats, but a bent chain that repeats along a direction outside the 13 is reported too low.", "quantifier": "all grids, masks, component labellings, site lists, all dimensionality functions", "why_tests_cant": "All connectivities; the bisection must be right for every threshold.", "anchors": ["src/baderkit/core/badelf/badelf.py:_get_ELF_dimensionality", "src/baderkit/core/badelf/badelf.py:_get_electride_dimensionality", "src/baderkit/core/badelf/badelf.py:all_electride_dims", "src/baderkit/core/badelf/badelf.py:all_electride_dim_cutoffs", "src/baderkit/core/badelf/badelf.py:electride_dimensionality", "src/baderkit/core/badelf/badelf_spin.py:electride_dimensionality"]}
{"id": "C57", "title": "Root compression is correct under every thread interleaving", "statement": "compress_roots, whose threads share and rewrite the parent array while halving paths, returns for each entry the root of its tree in the input, for every interleaving of the threads' individual reads and writes; every thread finishes.", "quantifier": "all parent arrays that are forests (with -1 for absent), all numbers of threads, all schedules", "why_tests_cant": "Races: tests see one schedule.", "anchors": ["src/baderkit/core/utilities/union_find.py:compress_roots", "src/baderkit/core/utilities/union_find.py:find_root"]}
{"id": "C58", "title": "An object with a history behaves like a new one", "statement": "Reading any property after any sequence of setter calls, reads and failed computations has the same outcome (value or exception) as reading it from a new object constructed with the current grids and settings. Fails for atom_avg_surface_distances, whose getter calls the wrong routine, and for vacuum_tol=True, which only the constructor translates.", "quantifier": "all finite histories, all properties", "why_tests_cant": "Ranges over all histories.", "anchors": ["src/baderkit/core/bader/bader.py: property getters", "src/baderkit/core/bader/bader.py:__init__"]}
{"id": "C59", "title": "Derived grid data follow the assigned data", "statement": "After any sequence of assignments to the total or difference data of a grid and reads of derived data, a read shows the value for the current data. It fails for the spin parts and the spline coefficients, which are cached and never reset, and the masks of local maxima and minima cannot be read at all: every read raises.", "quantifier": "all finite histories of assignments and reads; existence of a violating history", "why_tests_cant": "Ranges over all histories.", "anchors": ["src/baderkit/core/toolkit/grid.py:_reset_cache", "src/baderkit/core/toolkit/grid.py:split_to_spin"]}
{"id": "C60", "title": "Linear combination of grids", "statement": "linear_add succeeds exactly when both grids hold the same data sets, keeps names and shapes, computes a + scale*b at every point, and adding with the negative scale restores the data.", "quantifier": "all grids and scales", "why_tests_cant": "Continuum of inputs.", "anchors": ["src/baderkit/core/toolkit/grid.py:linear_add"]}
{"id": "C61", "title": "A box around a point is the periodic neighbourhood", "statement": "cubic_slice returns the data at all points within the given number of steps of a point, wrapped periodically. It holds for size 1 only: for larger sizes the box reaches one point up.", "quantifier": "all grids, points (inside or outside the cell) and sizes", "why_tests_cant": "All points and sizes.", "anchors": ["src/baderkit/core/toolkit/grid.py:cubic_slice"]}
{"id": "C62", "title": "Gradients of the neargrid method", "statement": "The gradient at a voxel is zero where no neighbour is higher, exact for data affine near the voxel, and unchanged when a constant is added to the data.", "quantifier": "all grids, voxels, lattices", "why_tests_cant": "Continuum of inputs.", "anchors": ["src/baderkit/core/bader/methods/neargrid/neargrid_numba.py:get_gradient_simple", "src/baderkit/core/bader/methods/neargrid/neargrid_numba.py:get_gradient_overdetermined"]}
{"id": "C63", "title": "Parabolic refinement of maxima", "statement": "The refined value of a maximum is at least the 27 data values around it, the refined coordinate lies in the unit cell and moves by at most the clamp. The clamp is not isotropic: the Cartesian step is scaled with the shape of the wrong axis.", "quantifier": "all grids, maxima, fits; existence of a violating lattice", "why_tests_cant": "Continuum of inputs.", "anchors": ["src/baderkit/core/utilities/interpolation.py:refine_frac_max_parabolic", "src/baderkit/core/utilities/interpolation.py:refine_maxima"]}
{"id": "C64", "title": "Line sampling", "statement": "A line sample has the requested number of values, taken at equally spaced points whose first and last are exactly the two ends; sampling the reversed line reverses the values.", "quantifier": "all grids, end points, numbers of points", "why_tests_cant": "Continuum of inputs.", "anchors": ["src/baderkit/core/toolkit/grid.py:linear_slice", "src/baderkit/core/utilities/interpolation.py:linear_slice"]}
{"id": "C65", "title": "Partition planes of the unit cell", "statement": "Reducing the partition planes to the unit cell keeps every plane that bounds a region of the cell, so that the regions are unchanged up to rounding. It fails: a site whose region is the whole cell loses all planes, the fractional displacement is used as the Cartesian normal in non-cubic cells, and sorting the planes does not reorder their sites.", "quantifier": "all plane lists, cells, transformations", "why_tests_cant": "Continuum of inputs.", "anchors": ["src/baderkit/core/utilities/voronoi.py:get_cell_wrapped_voronoi", "src/baderkit/core/badelf/badelf.py:partitioning_planes"]}
{"id": "C66", "title": "Site lookup within a tolerance", "statement": "A site found for a point is within the tolerance of it. A point within the tolerance of a site may be missed, and the resulting -1 is used as an index.", "quantifier": "all site lists, points, tolerances", "why_tests_cant": "Continuum of inputs.", "anchors": ["src/baderkit/core/utilities/voronoi.py:find_site_in_tol"]}
{"id": "C67", "title": "Both ends of a bond share one dividing plane", "statement": "The fractions at which a bond is divided, computed once per set of equivalent bonds, agree for bonds of the same direction and add up to one for opposite directions; a bond between equivalent atoms is divided in the middle; every fraction is strictly between 0 and 1.", "quantifier": "all bond lists with any equivalence keys and orientations", "why_tests_cant": "All lists and orders.", "anchors": ["src/baderkit/core/labelers/elf_labeler/elf_radii_numba.py:get_all_atom_elf_radii"]}
{"id": "C68", "title": "Miller indices give the plane normal", "statement": "For Miller indices that are not all zero the returned Cartesian vector is a unit vector perpendicular to exactly the directions lying in the plane; all zero raises an exception. It points to the side on which h x + k y + l z grows exactly when the product of the nonzero indices times the determinant of the lattice is positive, otherwise to the opposite side.", "quantifier": "all lattices and indices", "why_tests_cant": "Continuum of inputs.", "anchors": ["src/baderkit/core/toolkit/structure.py:get_cart_from_miller"]}
{"id": "C69", "title": "Neighbour translation tables are complete", "statement": "The translations to neighbouring cells are the 27 combinations, each once with the home cell first; the face transformations are the six unit steps.", "quantifier": "all grid shapes", "why_tests_cant": "All shapes.", "anchors": ["src/baderkit/core/toolkit/grid.py:grid_neighbor_transforms", "src/baderkit/core/toolkit/grid.py:point_neighbor_face_tranforms"]}
{"id": "C70", "title": "Structure in VASP files", "statement": "Writing a structure and reading it back restores the cell and fractional coordinates to 1e-6 and the elements in order; the data blocks follow unchanged. Files written with vasp4_compatible can never be read back, and coordinates that fill their column make the file unreadable.", "quantifier": "all structures that fit the columns, any data", "why_tests_cant": "All structures.", "anchors": ["src/baderkit/core/utilities/file_parsers.py:read_vasp", "src/baderkit/core/utilities/file_parsers.py:write_vasp"]}
{"id": "C71", "title": "Format detection", "statement": "Every file written by the VASP or the cube writer is recognised as such; bytes that are no text are HDF5 exactly when the signature is present.", "quantifier": "all structures and data", "why_tests_cant": "All contents.", "anchors": ["src/baderkit/core/utilities/file_parsers.py:detect_format"]}
{"id": "C72", "title": "Significant figures", "statement": "Rounding to n figures changes a number by at most half a unit of its n-th figure and keeps numbers with no more figures; the number of figures inferred from data is the smallest that keeps all values to 1e-15. It fails for data all below 1e-15 (one figure) and, with more than 1000 values, for values outside the random sample.", "quantifier": "all data and sample choices; existence of violating data", "why_tests_cant": "All data.", "anchors": ["src/baderkit/core/utilities/file_parsers.py:round_to_sig_figs", "src/baderkit/core/utilities/file_parsers.py:infer_significant_figures"]}
{"id": "C73", "title": "Domains of the bifurcation graph are connected components", "statement": "find_domain_bifurcations returns rows (basins, lower value, upper value, dimensionality, parent). At every value the basins of a row that exists there are one connected component of the basins under the connections at or above the value, every component is exactly one such row, rows that exist together are disjoint, the dimensionality is the one found at each connection value (as the code computes it, it is at least the number of independent lattice translations of the connected region of voxels at or above the value around the row's first maximum, and equal to it if no two infinite regions join as the value falls), a parent comes earlier, contains its child, ends where the child begins and differs in basins or dimensionality, roots begin at the minimum of the data. If basins touch strictly below their maxima, every basin is the single basin of exactly one childless row, whose upper value is its maximum. The upper value of a childless root (a crystal with one basin) is never written, and values from 1e12 on are ignored.", "quantifier": "all numbers of basins, all lists of connections and values, all dimensionality functions", "why_tests_cant": "Any number of levels, merges and ties.", "anchors": ["src/baderkit/core/labelers/bifurcation_graph/graph_numba/domain_bifurcations.py:find_domain_bifurcations"]}
{"id": "C74", "title": "Domains around an atom are found from the inside outwards", "statement": "At a given value, the domains listed as surrounding an atom are those met by repeatedly moving from the group the atom is in to the group of the other kind (void or domain) it touches most, up to the first infinite group; the answer is unique, lists no domain twice and is empty exactly if the atom is in an infinite void. If a finite void and a finite domain touch each other most, or the atom is nested more than 100 deep, the search raises.", "quantifier": "all dimensionalities, all contact counts, all numbers of voids and domains, all starting groups", "why_tests_cant": "The chain may be of any length and the result depends on all contact counts.", "anchors": ["src/baderkit/core/labelers/bifurcation_graph/graph_numba/surrounded_atoms.py:find_atom_domains"]}
{"id": "C75", "title": "Domains are cut where the number of surrounded atoms changes", "statement": "Cutting the domains at the values at which the number of atoms they surround changes loses nothing: at each value at which a domain exists it is exactly one piece, pieces keep basins and dimensionality, a piece's parent comes before it and ends where it begins, and the atoms of a piece are those surrounded where it begins, with the same number at every value inside. An exchange of one atom for another is not noticed; a root whose basins meet at the lowest value loses its children.", "quantifier": "all trees of domains, all ascending lists of values, all lists of surrounded atoms", "why_tests_cant": "Depends on the whole history of values.", "anchors": ["src/baderkit/core/labelers/bifurcation_graph/graph_numba/surrounded_atoms.py:get_domains_surrounding_atoms"]}
{"id": "C76", "title": "The bifurcation graph holds every basin exactly once", "statement": "The graph made from the connections of the basins is a forest; a node is reducible exactly if it has children, its basins are divided among them and it ends where they begin; the irreducible nodes together have each basin exactly once, also after the clean-up; node subtypes say how a node differs from its parent.", "quantifier": "all connection lists, numbers of basins, dimensionalities, surrounded atoms and clean-up cut-offs", "why_tests_cant": "Trees of any depth and any number of basins.", "anchors": ["src/baderkit/core/labelers/bifurcation_graph/graph.py:BifurcationGraph.from_labeler"]}
{"id": "C77", "title": "Every saddle voxel is marked", "statement": "A voxel is marked as a possible saddle exactly if it borders another basin, is not vacuum and passes two checks: in its 3x3x3 box the higher (or lower) voxels form at least two groups, or a voxel of equal value occurs (a vacuum voxel met before that fails the check); and in its 5x5x5 box the number of groups of higher voxels changes when the voxels of equal value, among them the voxel itself, are joined to them. With distinct values and no vacuum next to it, every border voxel with two higher neighbours that are not connected through higher voxels anywhere on the grid is marked; with equal values it can be missed.", "quantifier": "all grids of at least three voxels per axis, data, masks, directions (maxima or minima)", "why_tests_cant": "The connection may run around the whole periodic cell; groups of any shape.", "anchors": ["src/baderkit/core/labelers/bifurcation_graph/graph_numba/bifurcation_base.py:find_potential_saddle_points"]}
{"id": "C78", "title": "Basins are connected at the right values", "statement": "The list of connections has, for every marked voxel and every other basin next to it, the highest value at which the voxel meets that basin, and, for every basin not reached by a marked voxel, the highest value at which it touches each other basin (if that value is positive); nothing else; so every basin that touches another one has a connection.", "quantifier": "all grids, labelings, data and masks", "why_tests_cant": "Any number of basins in any arrangement.", "anchors": ["src/baderkit/core/labelers/bifurcation_graph/graph_numba/domain_bifurcations.py:find_domain_connections", "src/baderkit/core/labelers/bifurcation_graph/graph.py:BifurcationGraph.from_labeler"]}
{"id": "C79", "title": "The graph shows the connected regions above each value", "statement": "On a grid of distinct values without vacuum whose basins are found by ascent (as with the ongrid method), two voxels at or above a value lie in one connected region of such voxels exactly if the connections at or above the value join their basins; at every value each region is exactly one domain of the graph, which lists the basins whose maxima lie in it.", "quantifier": "all grids of at least three voxels per axis, all distinct data, all values", "why_tests_cant": "Regions percolate through periodic boundaries in any shape; the value is continuous.", "anchors": ["src/baderkit/core/labelers/bifurcation_graph/graph.py:BifurcationGraph.from_labeler", "src/baderkit/core/labelers/bifurcation_graph/graph_numba/domain_bifurcations.py:find_domain_connections", "src/baderkit/core/labelers/bifurcation_graph/graph_numba/bifurcation_base.py:find_potential_saddle_points"]}
{"id": "C80", "title": "Every feature gets the type its rules give", "statement": "Labelling the features of a new graph: domains around one atom that make up most of the range of values become shells, as do features around exactly one atom; a feature between two atoms is a bond if and only if the domains that hold both atoms exist almost as high as those that hold one, it has two neighbours, and it has enough charge or touches a metal; lone pairs are found only for a reason given by a domain around them, and always in the domain of a lone ion and in the first domain around a bond; what is left is a bare electron if and only if all five values exceed their limits. In the end every feature has one of seven types, no basin is lost, and every atom has a feature unless that check is switched off. Exceptions: without combine_shells the shell domains have no effect at all; a feature between two atoms that no domain holds both makes the labelling fail; a shell found late keeps neighbours that are not its atom.", "quantifier": "all graphs, positions, charges, radii and settings", "why_tests_cant": "The rules look at all ancestors and all features below each domain of a tree of any shape, in an order that depends on the values.", "anchors": ["src/baderkit/core/labelers/elf_labeler/elf_labeler.py:ElfLabeler._get_bifurcation_graph", "src/baderkit/core/labelers/elf_labeler/elf_labeler.py:ElfLabeler._mark_shells", "src/baderkit/core/labelers/elf_labeler/elf_labeler.py:ElfLabeler._mark_covalent", "src/baderkit/core/labelers/elf_labeler/elf_labeler.py:ElfLabeler._mark_lonepairs", "src/baderkit/core/labelers/elf_labeler/elf_labeler.py:ElfLabeler._mark_metallic_or_bare", "src/baderkit/core/labelers/bifurcation_graph/nodes.py:IrreducibleNode.coord_indices"]}
{"id": "C81", "title": "Contacts between voids and domains", "statement": "For every sequence of growing solids the counter of a void and a domain is at most the number of contacts (a voxel of the void and a direction to a neighbour labelled with a basin of the domain) and is positive exactly if there is a contact, with every interleaving of the threads; it is that number if the threads run one after the other or if one thread makes all its increments. A void that touches one domain only is always found to be surrounded by it, and a domain that touches one void only by that void. With several threads increments can be lost, so the domains found around an atom can depend on the schedule and an exception can be raised. An atom in a vacuum voxel is taken to be in a void it does not belong to.", "quantifier": "all grids, solids, labels, domains, atoms; all interleavings of reads and writes; existence of a violating schedule", "why_tests_cant": "Ranges over all thread schedules and all grids.", "anchors": ["src/baderkit/core/labelers/bifurcation_graph/graph_numba/surrounded_atoms.py:get_connected_voids", "src/baderkit/core/labelers/bifurcation_graph/graph_numba/surrounded_atoms.py:find_atom_domains", "src/baderkit/core/labelers/bifurcation_graph/graph_numba/surrounded_atoms.py:get_domains_surrounding_atoms"]}
{"id": "C82", "title": "Exported feature volumes", "statement": "Every exporter of feature volumes writes the requested files and nothing else: one file per requested feature, type or channel, named by the prefix and the feature, type or channel, with the requested data (reference or charge) at the voxels of these features and zero elsewhere, in the requested format; no temporary file stays, no other file changes, and the files of all features add up to the data. It holds for single features, unions and spin-polarised channels. It fails in these cases, each shown: by type the reference is written even if the charge was requested; types with the same dummy species overwrite each other; with equal spin channels only the first type is written, and the BadELF files keep temporary names; a directory given as text raises; by type, no directory raises and leaves the temporary file; with spin an existing file of a feature is removed and, for BadELF, the requested format is ignored.", "quantifier": "all labels, features, types, prefixes, directories and earlier contents of the directory", "why_tests_cant": "a test writes a few files to an empty directory and cannot see collisions between types, leftovers or overwritten files for other inputs", "anchors": ["src/baderkit/core/labelers/elf_labeler/elf_labeler.py: ElfLabeler.write_feature_basins, write_feature_basins_sum, write_all_features, write_features_by_type, write_features_by_type_sum", "src/baderkit/core/labelers/elf_labeler/elf_labeler_spin.py: SpinElfLabeler.write_all_features, write_features_by_type, write_features_by_type_sum", "src/baderkit/core/badelf/badelf_spin.py: SpinBadelf.write_atom_volumes, write_all_atom_volumes, write_atom_volumes_sum, write_species_volume", "src/baderkit/core/labelers/bifurcation_graph/enum_and_styling.py: FeatureType.dummy_species"]}
{"id": "C83", "title": "Combined results of a spin-polarised ELF", "statement": "The combined structures list the atoms, every spin-up feature (with xu if it is only there) and the spin-down features that are not spin-up features (with xd), in the order of the combined charges, volumes and oxidation states; charges add up to those of both channels, volumes to their average, and oxidation states to valence minus charge. The total number of electrons is that of the charge density. It is not if the ELF of both channels agree within 1e-4 although the charge has a net moment: then every region has the moment added. The dictionary of results shows charges of the default splitting whatever splitting is requested and recorded.", "quantifier": "all pairs of channels, sites, charges and charge densities", "why_tests_cant": "tests use a few materials; that the orders of separately built lists agree and that the shortcut for equal channels is exact are statements about all inputs", "anchors": ["src/baderkit/core/labelers/elf_labeler/elf_labeler_spin.py: SpinElfLabeler.__init__, labeled_structure, electride_structure, get_charges_and_volumes, get_oxidation_and_volumes_from_potcar, total_electron_number, vacuum_charge, to_dict", "src/baderkit/core/labelers/elf_labeler/elf_labeler.py: ElfLabeler.to_dict"]}
{"id": "C84", "title": "Surface distances of ELF features", "statement": "For every feature the surface distances reported are taken over exactly its surface voxels (voxels of the feature outside the vacuum with a neighbour outside the vacuum that belongs to another feature; borders between basins of one feature do not count), for every schedule of the parallel loop: the average is the mean distance from the centre of the feature to the nearest image of these voxels, the minimum is the smallest one and is never capped by its starting value. In skewed cells the distances can be too large; the minimum is right in any cell if it is at most half of the distances between opposite faces. A feature without surface is reported with twice the longest lattice vector and no average.", "quantifier": "all grids, labelings, vacuum masks, lattices, groupings of basins into features and schedules", "why_tests_cant": "A statement about all voxels of all grids and about every order in which they are visited.", "anchors": ["src/baderkit/core/labelers/elf_labeler/elf_labeler_numba.py:get_feature_edges", "src/baderkit/core/labelers/elf_labeler/elf_labeler_numba.py:get_min_avg_feat_surface_dists", "src/baderkit/core/labelers/elf_labeler/elf_labeler.py:ElfLabeler._calculate_feature_surface_dists"]}
{"id": "C85", "title": "Radii, features and electrons of the sites of an electride structure", "statement": "The radius of an atom (or electride) is the smallest radius among its neighbours, with the type of one of the neighbours at that radius, however ties are sorted; a site without neighbours silently gets the smallest radius of all others. The features listed for a site are those that belong solely to it, none is listed twice; exceptions, each shown: a feature with one neighbour among the atoms but several when electrides count is listed for the first of them, and one with several neighbours among the atoms but a single one with electrides is not listed. The highest value of a site is the highest of its features, and asking for it raises if a site has none. The electrides per formula unit are the charges of the bare electrons. The types of the neighbour radii with electrides are those without.", "quantifier": "all neighbour data, all lists of features, all results of an unstable sort", "why_tests_cant": "Sorting ties and orders of lists differ with the input; a test sees a few.", "anchors": ["src/baderkit/core/labelers/elf_labeler/elf_labeler.py:ElfLabeler._get_atom_elf_radii", "src/baderkit/core/labelers/elf_labeler/elf_labeler.py:ElfLabeler.atom_feature_indices_e", "src/baderkit/core/labelers/elf_labeler/elf_labeler.py:ElfLabeler.atom_max_values_e", "src/baderkit/core/labelers/elf_labeler/elf_labeler.py:ElfLabeler.electrides_per_formula", "src/baderkit/core/labelers/elf_labeler/elf_labeler.py:ElfLabeler.atom_nn_elf_radii_types_e"]}
{"id": "C86", "title": "Bonds and planes of all atoms from those of a few", "statement": "From the bonds of the symmetry-unique atoms every bond of the crystal is generated: for atoms in the home cell that are more than the tolerance apart and bonds that the operations take to bonds of atoms, each copy of a given bond has a row with the right atom, the right neighbour and its image, the radius (fraction times bond length, the same for all copies if the operations keep distances), and a plane through the point at that fraction with a unit normal along the bond; every row is such a copy, no row is repeated, no exception is raised. For any structure a row whose ends were found has its ends within the tolerance of the copied bond. Exceptions, each shown: the bond length reported is the radius; a neighbour that is not found is not noticed, reported as atom -1 and drawn to the last atom.", "quantifier": "all lists of atoms, bonds, fractions, symmetry operations, lattices and tolerances", "why_tests_cant": "Ranges over all crystals and symmetry operations; a test sees a few space groups.", "anchors": ["src/baderkit/core/utilities/voronoi.py:generate_symmetric_bonds", "src/baderkit/core/utilities/voronoi.py:find_site_in_tol", "src/baderkit/core/labelers/elf_labeler/elf_radii.py:ElfRadiiTools.get_voronoi_radii"]}
{"id": "C87", "title": "Extent of a voxel and distance to the nearest lattice point", "statement": "The extent reported for a voxel is the largest distance of any of its points from its centre, for every cell. So a voxel given to a site as a whole because its centre lies further inside of all planes than the extent lies inside of them with every point. Every distance to the lattice points reported for a voxel is the distance to a lattice point, to six decimals; with orthogonal lattice vectors it is the nearest one. In skewed cells it may not be, since only the eight corners of the cell are compared (shown).", "quantifier": "all grids, lattices, planes and voxels", "why_tests_cant": "Ranges over all lattices and all points of a voxel.", "anchors": ["src/baderkit/core/toolkit/grid.py:Grid.max_point_dist", "src/baderkit/core/toolkit/grid.py:Grid.point_dists", "src/baderkit/core/badelf/badelf.py:Badelf._get_voxel_assignments"]}
{"id": "C88", "title": "What each method of a BadELF run assigns to electrides, atoms and the total", "statement": "In a BadELF run the label of the j-th electride is found exactly at the voxels of its ELF feature, and the electride gets all their charge and volume and nothing else, whatever the planes; every other non-vacuum voxel that lies inside a region of the planes by more than the extent of a voxel gets the atom of the first such region; vacuum gets no label. A voxel that neither decides is divided among the atoms found at the smallest distance at which any of its neighbours has an atom, in proportion to how many of the neighbours at that distance each atom has (at most ten atoms). Charges of sites plus vacuum add to the charge of the cell and volumes to its volume - except that a voxel whose nearest atoms are only found at the largest distance of the search sphere is given to nobody. With the zero-flux method the totals agree up to the rounding of the sites, and an electride gets the same labels as in BadELF and the same charge if no other feature is coordinated to it; otherwise it gets more. With VoronELF the planes have no effect at all: all voxels keep the zero-flux labels, and the charge of every feature shared between sites (bonds, metallic, multi-centred) is missing from the total.", "quantifier": "all grids, cells, sets of disjoint features with any types, basins, vacuum masks, charge data, planes, sorts of ties and distances, splitting methods by weight", "why_tests_cant": "tests run a few structures with one method and compare sums with tolerances; voxels in the last shell, features coordinated to electrides and shared features under VoronELF do not occur in them", "anchors": ["src/baderkit/core/badelf/badelf.py:Badelf._get_voxel_assignments", "src/baderkit/core/badelf/badelf.py:Badelf._zero_flux_feature_labels", "src/baderkit/core/badelf/badelf.py:Badelf.atom_labels", "src/baderkit/core/badelf/badelf.py:Badelf.charges", "src/baderkit/core/badelf/badelf.py:Badelf.volumes", "src/baderkit/core/badelf/badelf.py:Badelf.total_electron_number", "src/baderkit/core/badelf/badelf_numba.py:get_badelf_assignments"]}
{"id": "C89", "title": "Whether merged maxima form a point, a ring or a cage", "statement": "When several maxima are merged into one irreducible domain, the domain is a point for one or two maxima and a ring for exactly three. For four or more maxima that have periodic images within half a cell of the first one it is a ring exactly if there is a plane through their centre from which they deviate by less than a thousandth of their deviation from another plane (fractional coordinates, root mean square), so every planar set that is not a single point is a ring, and otherwise a cage; if all coincide the call fails. The order of the maxima and the choice of their images do not matter if all have images within half a cell of each other; for wider sets they do: the same four maxima of one plane are a cage in one order and a ring in another.", "quantifier": "all lists of maxima, all choices of periodic images, all orders", "why_tests_cant": "tests use a few molecules; the property is a statement about all point sets, images and orders, and the failure needs a feature wider than half a cell in a particular order", "anchors": ["src/baderkit/core/labelers/bifurcation_graph/graph_numba/bifurcation_base.py:get_pt_ring_cage", "src/baderkit/core/labelers/bifurcation_graph/nodes.py:ReducibleNode.make_irreducible"]}
{"id": "C90", "title": "Voronoi neighbours of a voxel", "statement": "The neighbours used by the weight method are the voxels whose Voronoi cells share a face with the cell of a voxel in the infinite grid, each once and with its opposite, with their distance, corners on the common face and the area those enclose; there are at most fourteen. This holds when the grid has an obtuse superbase within two steps (orthogonal cells of any shape, face-centred cells). It fails in leaning cells, where a neighbour is more than two steps away: it is missed and a voxel that is no neighbour is returned.", "quantifier": "all cells and grid shapes", "why_tests_cant": "A claim about infinitely many grid points and a continuum of cells.", "anchors": ["src/baderkit/core/toolkit/grid.py:point_neighbor_voronoi_transforms", "src/baderkit/core/toolkit/grid.py:facet_area"]}
{"id": "C91", "title": "Symmetry data follows the structure", "statement": "The space-group analyzer and the symmetry data (equivalent atoms) that are read from a structure are those of its present sites and settings: whatever is done before the first read, and however sites are then replaced, inserted and removed between reads. This fails in three ways: settings that are changed after a read are ignored for good, a site that is changed in place after a read is not seen, and reading the analyzer after a change makes the next read of the data return the old one.", "quantifier": "all histories of changes and reads, all analyses", "why_tests_cant": "Histories are unbounded; the failures need particular sequences of reads.", "anchors": ["src/baderkit/core/toolkit/structure.py:Structure.spacegroup_analyzer", "src/baderkit/core/toolkit/structure.py:Structure.symmetry_data", "src/baderkit/core/toolkit/structure.py:Structure.symmetry_kwargs"]}
{"id": "C92", "title": "Planes that bound an atom", "statement": "Of all planes across the bonds of an atom only those on the surface of the atom's region are kept; the kept planes cut out exactly the same region, whatever the fractions, whenever the region is bounded and bonds that are treated as equivalent are images of each other under a symmetry of the region. The region never becomes smaller, each atom is handled with its own bonds, and an atom without bonds ends the run. In cubic cells the region is that of the planes across the bonds in real space. It fails when bonds with the same key are not equivalent: all lattice vectors of equal length share a key, so faces can be lost and a region becomes unbounded. It fails in leaning cells, where the candidates are chosen with planes in fractional coordinates and the nearest neighbours are dropped.", "quantifier": "all bond lists, fractions, coordinates", "why_tests_cant": "Continuum of polyhedra.", "anchors": ["src/baderkit/core/labelers/elf_labeler/elf_radii.py:get_voronoi_radii", "src/baderkit/core/labelers/elf_labeler/elf_radii.py:_get_plane_equations", "src/baderkit/core/utilities/voronoi.py:get_planes_on_surface"]}
{"id": "C93", "title": "Regridding keeps the data in place", "statement": "A regridded grid has the requested shape, or for each axis the whole number nearest to what the requested resolution asks for (exactly the requested resolution if these are whole; an axis vanishes below one half). With the shape unchanged the data are unchanged; with whole factors on all axes the charge of the cell is kept. Exceptions, each shown: the value of a voxel is that of the old field displaced by half the difference of the voxel widths on every axis whose size changes, so no old value is found again with an even factor; with other shapes the charge changes; the kind of data, the format and augmentation data are dropped, so a regridded spin-polarised ELF splits into half the sum and half the difference of its channels.", "quantifier": "all grids, shapes, resolutions and interpolation orders", "why_tests_cant": "tests compare shapes or look at pictures; a displacement by a fraction of a voxel passes", "anchors": ["src/baderkit/core/toolkit/grid.py: Grid.regrid, Grid.__init__, Grid.split_to_spin"]}
{"id": "C94", "title": "Values at points", "statement": "Asking for values at many points gives, in their order and however the parallel loop is scheduled, what asking for each one gives; at grid points every method returns the datum. A name that is not a method raises nothing and returns whatever the memory held.", "quantifier": "all data, lists of points, methods and schedules", "why_tests_cant": "schedules and memory contents cannot be enumerated; a wrong name may return zeros by luck", "anchors": ["src/baderkit/core/toolkit/grid.py: Grid.value_at, Grid.values_at", "src/baderkit/core/toolkit/interpolator.py: Interpolator.__call__", "src/baderkit/core/utilities/interpolation.py: interpolate_points"]}
{"id": "C95", "title": "Sites of structures with dummy atoms", "statement": "A structure with dummy atoms lists the atoms as they are and then one site per requested feature, with the symbol of its type at its position, in the order of the returned indices, which is also the order of the labels. Ordered by type it begins with the structure of atoms and electrides, so a site has the same number in both. The structure, electride structure and number of electrides of Badelf are the atoms, the labeler's electride structure and the number of bare electrons, unless an atom carries the symbol of a feature: such atoms are dropped and later ones get other numbers.", "quantifier": "every list of atoms, every list of features of any types, every selection of types", "why_tests_cant": "tests use one compound with one electride; the alignment of site numbers must hold for every mix of features", "anchors": ["src/baderkit/core/labelers/elf_labeler/elf_labeler.py:get_feature_structure", "src/baderkit/core/labelers/elf_labeler/elf_labeler.py:get_feature_structure_by_index", "src/baderkit/core/labelers/bifurcation_graph/graph.py:electride_structure", "src/baderkit/core/badelf/badelf.py:structure", "src/baderkit/core/badelf/badelf.py:electride_structure", "src/baderkit/core/badelf/badelf.py:nelectrides"]}
{"id": "C96", "title": "Files are read and written in the format asked for", "statement": "Grid.from_dynamic gives what the reader of the given format, or of the detected one, makes of the file; a format given as a string always fails. Grid.write uses the given format, as member or by name, or that of the source, changes no other file, and what it wrote is read back by the same format's reader.", "quantifier": "every disk, path, format argument and grid", "why_tests_cant": "tests read a few files of known format; the choice must be right for every combination of argument, detection and source format", "anchors": ["src/baderkit/core/toolkit/grid.py:from_dynamic", "src/baderkit/core/toolkit/grid.py:write", "src/baderkit/core/utilities/file_parsers.py:Format"]}
{"id": "C97", "title": "Commands work on the files, selections and names they are given", "statement": "The commands run and label analyse exactly the files they are given, with the given format, method and tolerances; the option to normalise the vacuum has no effect; badelf never opens the files it is given but CHGCAR and ELFCAR of the current directory. A list of indices or names on the command line is understood without loss for any brackets and blanks; no list becomes one empty word. The command split writes two different files and leaves all others; their names keep the name of the file only if it neither begins nor ends with a character of the suffix.", "quantifier": "every disk, every path, every selection text, every file name", "why_tests_cant": "no test covers the command line; the result must follow the arguments for every directory content and text", "anchors": ["src/baderkit/command_line/base.py:run", "src/baderkit/command_line/base.py:badelf", "src/baderkit/command_line/base.py:label", "src/baderkit/command_line/base.py:split", "src/baderkit/command_line/base.py:regrid", "src/baderkit/command_line/base.py:float_or_bool", "src/baderkit/core/bader/bader.py:from_dynamic", "src/baderkit/core/badelf/badelf.py:from_vasp", "src/baderkit/core/badelf/badelf_spin.py:from_vasp"]}
{"id": "C98", "title": "Tables of results", "statement": "The tables written for atoms and basins read back, as tab separated values, as exactly the expected columns and rows: one row per atom, or per significant basin in order with the label of its atom, with coordinates, charge, volume and distances to five decimals; all lines are equally long. Below the atoms stand the charge and volume of the vacuum and the totals; the printed charges add up to the printed total within half a unit of the last decimal per number. Columns of different lengths give no table.", "quantifier": "every list of atoms and basins, every value, all labels without tabs, line ends or outer blanks", "why_tests_cant": "tests at most check that a file exists; alignment and meaning must hold for every width and number of rows", "anchors": ["src/baderkit/core/bader/bader.py:get_atom_results_dataframe", "src/baderkit/core/bader/bader.py:get_basin_results_dataframe", "src/baderkit/core/bader/bader.py:write_atom_tsv", "src/baderkit/core/bader/bader.py:write_basin_tsv"]}
{"id": "C99", "title": "Summaries of results", "statement": "The dictionary and JSON summaries of Bader, Badelf, SpinBadelf and ElfLabeler hold every listed result exactly once, arrays as lists and structures as text, and can be written as JSON, with two exceptions: with a POTCAR the JSON summary of Bader always fails, and the summary of ElfLabeler records the splitting method it is given but lists the charges and volumes of the default method. SpinElfLabeler never lists feature types and electride radii. Oxidation states of Badelf are given exactly when the POTCAR has all elements: valence electrons minus charge for atoms, minus the charge for electrides, and they add up to all valence electrons minus all charges.", "quantifier": "every collection of results, every POTCAR, every splitting method, every list of atoms and electrides", "why_tests_cant": "tests write summaries of one finished run without a POTCAR; completeness and the meaning of the recorded settings must hold for every run", "anchors": ["src/baderkit/core/bader/bader.py:to_dict", "src/baderkit/core/bader/bader.py:to_json", "src/baderkit/core/bader/bader.py:get_oxidation_from_potcar", "src/baderkit/core/badelf/badelf.py:to_dict", "src/baderkit/core/badelf/badelf.py:get_oxidation_from_potcar", "src/baderkit/core/badelf/badelf_spin.py:to_dict", "src/baderkit/core/badelf/badelf_spin.py:get_oxidation_from_potcar", "src/baderkit/core/labelers/elf_labeler/elf_labeler.py:to_dict", "src/baderkit/core/labelers/elf_labeler/elf_labeler.py:get_oxidation_and_volumes_from_potcar", "src/baderkit/core/labelers/elf_labeler/elf_labeler_spin.py:to_dict"]}
{"id": "C100", "title": "Grids do not influence each other", "statement": "In every session that makes, copies, adds, assigns, edits in place and reads grids, each grid shows the arrays it would have if grids were independent values, and derived quantities that were not read before are those of the current arrays. A copy always starts with fresh derived quantities and the right spin flag. Exceptions: assigning an array of one grid to another shares it; the sum of two grids keeps the derived quantities (spline coefficients, spin parts) already read of the first; editing in place resets nothing; assigning a second array does not make the grid spin polarized.", "quantifier": "every sequence of operations on any number of grids, every content", "why_tests_cant": "tests use one or two grids in one order; aliasing and stale values appear only for particular histories", "anchors": ["src/baderkit/core/toolkit/grid.py:Grid", "src/baderkit/core/toolkit/grid.py:copy", "src/baderkit/core/toolkit/grid.py:linear_add", "src/baderkit/core/toolkit/grid.py:total", "src/baderkit/core/toolkit/grid.py:diff", "src/baderkit/core/toolkit/grid.py:cubic_spline_coeffs"]}
{"id": "C101", "title": "Summing and converting files", "statement": "The command sum writes one file that reads back, at every point and for total and spin, as the sum of the two files, in the format asked for or that of the first file, and leaves all other files alone; files of different shape or of which only one has spin are refused. The command convert writes a file with the arrays of the source in the format asked for. Exception: of a VASP file only the total is converted, so spin is lost.", "quantifier": "every pair of files, formats and output path", "why_tests_cant": "tests convert one file without spin", "anchors": ["src/baderkit/command_line/base.py:sum", "src/baderkit/command_line/base.py:convert", "src/baderkit/core/toolkit/grid.py:from_dynamic", "src/baderkit/core/toolkit/grid.py:write", "src/baderkit/core/toolkit/grid.py:linear_add"]}
{"id": "C102", "title": "Parallel loops give the same result under every schedule", "statement": "The parallel loops that find basin edges, steepest neighbours, voxels inside one partition, planes that cut the cell and the per-row and per-point arrays of the weight method and of BadELF leave the same arrays whatever the order in which threads read and write them, namely those of the same loop run serially; a loop never gets stuck; where two iterations write different values to one entry the result does depend on the schedule, so the indices written must differ.", "quantifier": "every grid, input array, number of iterations and interleaving of single reads and writes", "why_tests_cant": "a test sees one schedule on one machine", "anchors": ["src/baderkit/core/bader/methods/shared_numba.py:get_edges", "src/baderkit/core/bader/methods/ongrid/ongrid_numba.py:get_steepest_pointers", "src/baderkit/core/badelf/badelf_numba.py:get_in_partition_assignments", "src/baderkit/core/utilities/voronoi.py:get_cell_wrapped_voronoi", "src/baderkit/core/bader/methods/weight/weight_numba.py:get_weight_assignments"]}
{"id": "C103", "title": "A complete Bader run accounts for every voxel, electron and unit of volume, atom by atom", "statement": "Running Bader analysis on a pair of grids ends; voxels of the vacuum and only those belong to no atom; every other voxel is divided among the atoms (completely to one atom for ongrid and neargrid, by shares for weight); the charge and volume of each atom are its share of the charge grid and of the cell; total_electron_number and total_volume agree with the grid up to the rounding of the reported numbers; an ongrid voxel belongs to the atom of the maximum it ascends to; with the weight method a reported maximum belongs to the atom nearest to it, with ongrid this holds when the maxima are reported in voxel order and fails otherwise; it also fails when the vacuum is decided on another grid than the partitioned one. With neargrid-weight voxels are divided in the same way, but total_electron_number and total_volume exceed the crystal by what the vacuum is counted too much, and fall short if a maximum touches another basin.", "quantifier": "every pair of grids, cell, structure, vacuum tolerance, sorted order, schedule of the parallel passes, gradient field and rounding error", "why_tests_cant": "needs every grid and schedule, and a test on one material does not reveal atoms that exchange their basins", "anchors": ["src/baderkit/core/bader/bader.py:Bader.run_bader", "src/baderkit/core/bader/bader.py:Bader.run_atom_assignment", "src/baderkit/core/bader/bader.py:Bader.vacuum_mask", "src/baderkit/core/bader/bader.py:Bader.total_electron_number", "src/baderkit/core/bader/methods/base.py:MethodBase.run"]}
{"id": "C104", "title": "Counts of electride electrons and totals of features and of spin channels", "statement": "The number of electride electrons that BadELF reports is the charge on the voxels of the electride features, up to the rounding of the reported numbers; per reduced formula it is divided by the factor of the formula; the electride formula is the formula of the structure followed by e and that number rounded to a whole number; with two spin channels the count is the sum over the channels, electrons add up and volumes are averaged; the totals reported by the ELF labeler are the electrons of the charge grid and the volume of the cell.", "quantifier": "every structure, set of sites, charges, graph of features, pair of spin channels and rounding error", "why_tests_cant": "needs every list of sites and charges and every graph; a test on one electride does not show that no feature is counted twice or left out", "anchors": ["src/baderkit/core/badelf/badelf.py:Badelf.electrides_per_formula", "src/baderkit/core/badelf/badelf.py:Badelf.electrides_per_reduced_formula", "src/baderkit/core/badelf/badelf.py:Badelf.electride_formula", "src/baderkit/core/badelf/badelf_spin.py:SpinBadelf.electrides_per_formula", "src/baderkit/core/badelf/badelf_spin.py:SpinBadelf.total_electron_number", "src/baderkit/core/labelers/elf_labeler/elf_labeler.py:ElfLabeler.total_electron_number"]}
{"id": "C105", "title": "Reading an ElfLabeler or a Badelf in any order", "statement": "If the labelling of the features succeeds, every read of a feature property, of the neighbour radii and atomic radii (with and without electrides as atoms) and of the BadELF labels and charges gives the value that belongs to the settings, whatever was read before and in whichever order, also when the labeler was used before it is passed to Badelf. Deviations that are proved: when a test at the end of the labelling raises, the exception is seen only by the first read and later reads (features as well as BadELF charges) answer from the rejected labelling; a labelling that raises earlier leaves a half-marked graph that later reads answer from; settings assigned after the first read are ignored by the finished part and used by the part that was not yet read; a method assigned after the planes were read works with the planes of the old method, and after the charges were read it is ignored.", "quantifier": "every sequence of reads and assignments, every result of the labelling steps including exceptions, every method", "why_tests_cant": "the orders of reading are unbounded, and an exception in the middle leaves a state that a test has to think of", "anchors": ["src/baderkit/core/labelers/elf_labeler/elf_labeler.py:ElfLabeler.bifurcation_graph", "src/baderkit/core/labelers/elf_labeler/elf_labeler.py:ElfLabeler._get_bifurcation_graph", "src/baderkit/core/labelers/elf_labeler/elf_labeler.py:ElfLabeler.nearest_neighbor_data", "src/baderkit/core/labelers/elf_labeler/elf_labeler.py:ElfLabeler.atom_elf_radii", "src/baderkit/core/labelers/elf_labeler/elf_labeler.py:ElfLabeler.atom_nn_elf_radii_e", "src/baderkit/core/labelers/elf_labeler/elf_labeler.py:ElfLabeler.feature_types", "src/baderkit/core/badelf/badelf.py:Badelf.partitioning_planes", "src/baderkit/core/badelf/badelf.py:Badelf.charges", "src/baderkit/core/badelf/badelf.py:Badelf._get_voxel_assignments"]}
{"id": "C106", "title": "What a plot shows after any session of assignments", "statement": "After any sequence of assignments to a grid or Bader plot in which no radius of a hidden atom is changed, every atom is drawn with the radius, colour and gloss that are set and is visible exactly when it is listed; the outline of the cell always follows its settings; if no surface is hidden and the limits of the colours are left alone, the isosurface and the caps belong to the value, the visible basins, the opacity and the colours that are set. Whatever was done before, assigning visible_atoms, or iso_val while the surfaces are shown, brings the window into agreement again, and a picture shows the atoms, and everything that is switched on, as set. Limits stay in order and the value stays between them. Deviations that are proved: a new radius makes a hidden atom visible (also through the table of atoms); a value assigned while the surface is hidden is not used when it is shown again; a picture shows surfaces, caps and outline although they are hidden; new colour limits reach the caps only, and a new largest value leaves the old caps; caps without a surface vanish on an assignment; for nearly constant data the smallest value lies above the largest and nothing is drawn.", "quantifier": "every sequence of assignments, every data set, every contouring library", "why_tests_cant": "the plot is changed piece by piece by each assignment, and which pieces are stale depends on the whole history", "anchors": ["src/baderkit/plotting/core/plotter.py:StructurePlotter.visible_atoms", "src/baderkit/plotting/core/plotter.py:StructurePlotter.radii", "src/baderkit/plotting/core/plotter.py:StructurePlotter.colors", "src/baderkit/plotting/core/plotter.py:StructurePlotter.atom_df", "src/baderkit/plotting/core/plotter.py:StructurePlotter._create_structure_plot", "src/baderkit/plotting/core/plotter.py:StructurePlotter.get_plot_screenshot", "src/baderkit/plotting/core/plotter.py:GridPlotter.iso_val", "src/baderkit/plotting/core/plotter.py:GridPlotter.show_surface", "src/baderkit/plotting/core/plotter.py:GridPlotter.min_val", "src/baderkit/plotting/core/plotter.py:GridPlotter.max_val", "src/baderkit/plotting/core/plotter.py:GridPlotter._update_surface_mesh", "src/baderkit/plotting/core/plotter.py:GridPlotter._add_iso_mesh", "src/baderkit/plotting/core/plotter.py:GridPlotter._add_cap_mesh", "src/baderkit/plotting/core/plotter.py:GridPlotter.rebuild", "src/baderkit/plotting/core/plotter.py:BaderPlotter._update_plotter_mask"]}
{"id": "C107", "title": "Where the parts of a plot are drawn", "statement": "The spheres of an atom are at all translations of its position inside the cell or on its boundary; the outline is the twelve edges of the cell; every point of the drawn data carries the value of the equivalent voxel if its basin or atom is visible and -1 otherwise, so for values above -1 the surface encloses exactly the visible points with at least that value; the camera looks at the centre of the cell along the normal of the Miller plane, has everything in front of it, and its upward direction is perpendicular to the line of sight, as close to z as possible, and turned counter-clockwise by the rotation; a slice contains the atoms whose ball of full radius meets the plane. Deviations that are proved: for values of -1 or less all hidden points are enclosed; the plane of a slice and the view are on the wrong side when the product of the nonzero indices times the determinant is negative, so the view from the back along one or three indices cannot be had; atoms whose drawn sphere is not cut are part of a slice; the indices of atoms in the plot are those of the analysis only if the atoms are already ordered by electronegativity.", "quantifier": "every lattice, structure, grid, Miller indices, rotation and choice of visible basins", "why_tests_cant": "the formulas hold or fail depending on signs and degenerate directions that have to be chosen on purpose", "anchors": ["src/baderkit/plotting/core/plotter.py:StructurePlotter.get_edge_atom_fracs", "src/baderkit/plotting/core/plotter.py:StructurePlotter.get_lattice_mesh", "src/baderkit/plotting/core/plotter.py:StructurePlotter.get_camera_position_from_miller", "src/baderkit/plotting/core/plotter.py:StructurePlotter.get_site_mesh", "src/baderkit/plotting/core/plotter.py:GridPlotter.get_slice_plot", "src/baderkit/plotting/core/plotter.py:GridPlotter._make_structured_grid", "src/baderkit/plotting/core/plotter.py:BaderPlotter._update_plotter_mask", "src/baderkit/core/toolkit/structure.py:Structure.get_cart_from_miller"]}
{"id": "C108", "title": "The picture of a bifurcation graph", "statement": "Every bifurcation graph whose reducible nodes have children can be drawn. The irreducible nodes are equally spaced in height from 0 to 2 and their boxes do not overlap; a reducible node is at the mean height of its children; parts below nodes of which none is below the other are separated in height, so no level line of the graph passes through an upright line of another node; the lines are exactly those between parents and children; every name is listed once in the legend; circles and boxes are inside the axis, except for a box that was widened to 0.01. A reducible node that lost its children prevents the picture.", "quantifier": "every forest of nodes, every choice of values and names, every monotone rounding", "why_tests_cant": "Whether lines cross depends on the shape of the whole tree; trees are unbounded.", "anchors": ["src/baderkit/core/labelers/bifurcation_graph/graph.py:BifurcationGraph.get_plot"]}
{"id": "C109", "title": "Building and editing structures", "statement": "A structure built from float arrays of fractional coordinates has one site per species, in order, labelled by its symbol, at the equivalent point inside the cell. It changes the caller's arrays: exactly the given rows are wrapped; building again gives the same sites. Lists and integer arrays raise. Cartesian coordinates are wrapped modulo 1 angstrom, so a site is where it was asked for exactly when its three numbers are in [0,1). Assigning labels never changes a label. An inserted site is at its index, the others keep their order; a dictionary of properties reused for a second site carries the label of the first. The structure's merging of coordinates raises for every list of points.", "quantifier": "every lattice, array, list of species, dictionary and index", "why_tests_cant": "Aliasing and wrapping depend on the arrays of the caller and on the history of calls.", "anchors": ["src/baderkit/core/toolkit/structure.py:Structure.__init__", "src/baderkit/core/toolkit/structure.py:Structure.insert", "src/baderkit/core/toolkit/structure.py:Structure.labels", "src/baderkit/core/toolkit/structure.py:Structure.merge_frac_coords"]}
{"id": "C110", "title": "The controls of the window agree with the plot", "statement": "In a structure whose atoms are in the order of the plot, after the first result of a window and any sequence of clicks and edits, every control shows what is set in the plot: outline, gloss, surfaces, colours, opacities, isovalue, the rows of atoms and of basins. The box of an atom sets the boxes of its basins, the row of a species sets the rows of its atoms. The picture shows every atom exactly when its box is checked, as long as no radius is edited. After a further result the controls agree exactly when seven of them had been left as in a new window. In a structure in another order the box of an atom hides another atom.", "quantifier": "every structure, every rounding of the boxes, every sequence of events and of results", "why_tests_cant": "The state of the window depends on its whole history of clicks, edits and results.", "anchors": ["src/baderkit/plotting/gui/main.py:MainWindow.set_bader", "src/baderkit/plotting/gui/main.py:MainWindow.set_property", "src/baderkit/plotting/gui/tabs/atom_tab.py:AtomsTab", "src/baderkit/plotting/gui/tabs/basin_tab.py:BasinTab", "src/baderkit/plotting/gui/tabs/surface_tab.py:SurfaceTab", "src/baderkit/plotting/gui/tabs/view_tab.py:ViewTab"]}
{"id": "C111", "title": "Running and exporting in the window", "statement": "The result that the window shows after a run belongs to the paths and options in the fields when the button was pressed, whatever is edited meanwhile; after an error the last result stays. While runs succeed and no path is edited during one, the program goes on and the button is enabled only when no run is going on; after an edit it is enabled exactly when both paths exist. An exported file has the name and the format that were asked for, and the values of the grid in the visible basins and zero elsewhere. Exceptions: empty fields count as existing; pressing the button after a failed run or after an edit during a run ends the program; an exception outside the guarded parts leaves the button disabled; the reference grid is exported even when the charge density is selected; a directory with a dot in its name and a cancelled dialog raise.", "quantifier": "every sequence of edits, presses and ends of runs, every file name, selection and grid", "why_tests_cant": "Runs end at any moment between edits; file names are unbounded.", "anchors": ["src/baderkit/plotting/gui/tabs/bader_tab.py:BaderTab", "src/baderkit/plotting/gui/tabs/bader_tab.py:BaderWorker.run", "src/baderkit/plotting/gui/tabs/export_tab.py:ExportTab.export_basins"]}
{"id": "C112", "title": "The view of a plot and the fitted picture of a slice", "statement": "After any session of assignments the view indices and the rotation of a plot are the ones assigned last, and the picture shows what the last statement about the camera asked for; indices that are not three Python integers are refused without a change. As long as the camera itself is not assigned, the picture shows the reported indices and rotation. The picture of a slice shows the whole bounding box when the camera looks at its centre and neither the upward nor the horizontal direction has components of opposite signs; the window gets the proportions of the box up to half a pixel. Deviations that are proved: the button \"Set View\" leaves the reported indices and rotation as they were, so that the next rotation goes back to the old indices and the next indices to the old rotation; the rotation of a new plot is a tuple; a direction with components of opposite signs cuts corners off; along the diagonal of the box (1 1 1 of a cubic cell) the scale is zero and the window size cannot be computed; slices of oblique cells are not centred; pictures of wide boxes have margins.", "quantifier": "every cell with a volume, every sequence of assignments of indices, rotations, positions and radii and presses of the button, every bounding box, direction and window size", "why_tests_cant": "sessions are unbounded and the directions of view are a continuum; tests look at views along the axes", "anchors": ["src/baderkit/plotting/core/plotter.py:StructurePlotter.view_indices", "src/baderkit/plotting/core/plotter.py:StructurePlotter.camera_rotation", "src/baderkit/plotting/core/plotter.py:StructurePlotter.camera_position", "src/baderkit/plotting/core/plotter.py:StructurePlotter._set_camera_tight", "src/baderkit/plotting/core/plotter.py:GridPlotter.get_slice_plot", "src/baderkit/plotting/gui/tabs/view_tab.py:ViewTab.set_view"]}
{"id": "C113", "title": "The neighbours of a feature", "statement": "In a graph whose features have not been read yet, every read of the neighbouring atoms of a feature gives, in any session of reads and assignments of types, the neighbours that belong to its type at the first such read: the nearest atom for shells, cores and lone pairs, and otherwise what the neighbour search finds around the position of the feature among the atoms alone. The same holds for the list with bare electrons, where the search sees every feature that was bare at the first read once, and starts at the feature itself. The lists are not updated when types change later. The species of the neighbours can be read, and the graph can be drawn, exactly if no feature is found to be its own neighbour; this fails in cells so small that an image of the feature is one of its neighbours.", "quantifier": "every structure and list of features with distinct keys, every neighbour search, every sequence of reads and assignments of types", "why_tests_cant": "stored lists depend on the whole history of reads and assignments", "anchors": ["src/baderkit/core/labelers/bifurcation_graph/nodes.py:IrreducibleNode.coord_indices", "src/baderkit/core/labelers/bifurcation_graph/nodes.py:IrreducibleNode.coord_indices_e", "src/baderkit/core/labelers/bifurcation_graph/nodes.py:IrreducibleNode.coord_species", "src/baderkit/core/labelers/bifurcation_graph/nodes.py:NodeBase.plot_label", "src/baderkit/core/labelers/bifurcation_graph/graph.py:BifurcationGraph.electride_structure", "src/baderkit/core/labelers/bifurcation_graph/graph.py:BifurcationGraph.get_plot"]}
{"id": "C114", "title": "When two nearby maxima count as one", "statement": "After the flat regions, two maxima whose positions are at most a given distance apart are united if and only if the density between them has no significant minimum: every interior minimum of the values between the two positions is less deep, relative to the higher of the last peak before it and the next peak after it, than the tolerance. Values that only rise, or rise and then fall, always unite. Scaling the density by a positive number does not change the answer. Exceptions: adding a constant changes it, and with negative values no minimum counts; an arbitrarily small dip on the way up to a much higher peak counts, since its depth is measured from that peak; a profile with a flat end, or with a peak of value zero, reads outside an array or divides by zero.", "quantifier": "all sampled profiles between two maxima, tolerances and distances", "why_tests_cant": "the answer depends on the arrangement of all minima and peaks of an arbitrary profile", "anchors": ["src/baderkit/core/bader/methods/shared_numba.py:initialize_labels_from_maxima", "src/baderkit/core/bader/methods/base.py"]}
{"id": "C115", "title": "Units and zero of the grids", "statement": "A complete Bader run does not depend on the unit or the zero of the reference grid: with a times the reference grid plus b (a > 0) and the same vacuum voxels, every result (basins, maxima, atoms, charges, volumes, distances) is the same for the ongrid and weight methods, and for neargrid and neargrid-weight if no gradient crosses the absolute limit 1e-30. The vacuum is the same if it is decided on the charge grid, is switched off, or its tolerance is rescaled too. Basin and vacuum charges of the ongrid, neargrid and weight methods are linear in the charge grid: the charges of x times one density plus y times another are x times and y times the charges, with the same volumes, maxima and, for ongrid and neargrid, labels. Exception: neargrid treats gradients below 1e-30 as zero whatever the unit is, so the same density in another unit can have another partition. The neargrid-weight method visits edge voxels in the order of the charge; its charges are linear for densities that rise with the reference and are positive outside the vacuum, and not additive for others.", "quantifier": "all grids, units and zeros, methods, schedules and pairs of charge grids", "why_tests_cant": "a test compares two units; the claim is about every grid and every affine change of it", "anchors": ["src/baderkit/core/bader/bader.py:Bader.run_bader", "src/baderkit/core/bader/methods/neargrid/neargrid_numba.py", "src/baderkit/core/bader/methods/weight/weight_numba.py", "src/baderkit/core/bader/methods/ongrid/ongrid_numba.py"]}
{"id": "C116", "title": "Results do not depend on where the origin of the grid is", "statement": "Reading the same crystal from another voxel of the same grid (origin moved by whole voxels, atoms moved along) gives the ongrid and neargrid methods the same partition into basins, the same vacuum, the same charge and volume for the basin of every voxel, the same number of basins, and, when no maxima are merged, the same atom for every voxel and the same atomic charges and volumes. This holds when no maximum has an equally high neighbour; with a flat maximum the number of basins can depend on the origin, and with merged maxima atoms can exchange their basins. The neargrid-weight method gives the same results under the same condition if charge and reference rise together and the charge outside the vacuum is positive, also where maxima touch other basins and charge is lost. The weight method gives the same charges and volumes of basins, vacuum and atoms where its shares solve the flux equations in both runs; where flux is credited to a wrong basin a move of the origin by one voxel can change the charges of the atoms.", "quantifier": "all grids and cells, all shifts of the origin by whole voxels, all neighbour lists closed under reversal, all vacuum settings on the partitioned grid, all groupings of nearby maxima, and independent schedules of both runs", "why_tests_cant": "A test compares a few shifts of a few grids; whether labels, tie-breaking in voxel order and wrapping over the boundary cancel out must be settled for every grid, shift and schedule.", "anchors": ["src/baderkit/core/bader/bader.py: Bader.run_bader", "src/baderkit/core/bader/bader.py: Bader.assign_basins_to_structure", "src/baderkit/core/bader/methods/shared_numba.py: get_best_neighbor", "src/baderkit/core/bader/methods/neargrid/neargrid_numba.py: refine_fast_neargrid", "src/baderkit/core/bader/methods/shared_numba.py: initialize_labels_from_maxima", "src/baderkit/core/bader/methods/weight/weight_method.py: WeightMethod._run_bader", "src/baderkit/core/bader/methods/neargrid_weight/neargrid_weight_method.py: NeargridWeightMethod._run_bader"]}
{"id": "C117", "title": "The bifurcation graph of a labeler is the tree of connected regions", "statement": "Building a bifurcation graph from a labeler (before its clean-up) with basins found by steepest ascent on distinct values without vacuum gives: a forest in which every reducible node is divided among its children and ends where they begin, with every basin in exactly one irreducible node; for every value above the lowest one and every voxel at or above it exactly one node that reaches from below the value to it and whose basins are those whose maxima hang together with the voxel through voxels at or above the value; dimensionalities that are the number of independent lattice translations of that region (when no two infinite regions join); atoms listed in a node whenever their voxel is in the node's region, and never when the low voxels around the atom reach a periodic copy of it. The order of the parallel loops does not matter. Needed: no two basins meet at the lowest value of the grid, and the search for the surroundings of the atoms ends; otherwise the graph is wrong or an exception is raised.", "quantifier": "all grid shapes, values, labels, maxima and atoms, all orders of the parallel loops and all interleavings of the contact counters", "why_tests_cant": "The stages hand over masks, saddle values, domains, voids and rows; that each stage meets what the next one needs must hold for every grid and not for a few crystals.", "anchors": ["src/baderkit/core/labelers/bifurcation_graph/graph.py: BifurcationGraph.from_labeler", "src/baderkit/core/labelers/bifurcation_graph/graph_numba/domain_bifurcations.py: find_domain_bifurcations", "src/baderkit/core/labelers/bifurcation_graph/graph_numba/surrounded_atoms.py: get_domains_surrounding_atoms", "src/baderkit/core/labelers/bifurcation_graph/graph_numba/bifurcation_base.py: find_potential_saddle_points"]}
{"id": "C118", "title": "Writing and reading a bifurcation graph, and asking what is in it", "statement": "Writing a bifurcation graph with to_dict changes nothing, and reading the dictionary with from_dict gives the graph back: structure, labeler type, data of the basins, nodes, links and written attributes. Reading uses the dictionary up: a second from_dict on it raises KeyError, and so does from_dict on a copy dict(d) made before if the graph has nodes. Two dictionaries written from one graph are independent. A text from to_json can be read any number of times, always with the same graph and without changing an existing object. The graph read from a dictionary shares the CrystalNN options with the one written, so a change of one is a change of both; a graph read from a text has options of its own. The atomic radii given to the constructor are never written. `node in graph` tells whether the graph has a node with the key of the node, hence also says True for a removed node whose key was given again; for a number or a node of another graph it raises unless the graph is empty.", "quantifier": "every well formed graph, every memory with any other dictionaries, graphs and options, every order of writing, copying and reading of this kind, every removed last node and every node added after it", "why_tests_cant": "Sharing between dictionaries and what a call leaves behind in its argument depend on the history of calls; tests read each dictionary once.", "anchors": ["src/baderkit/core/labelers/bifurcation_graph/graph.py: BifurcationGraph.__init__, __contains__, to_dict, from_dict, to_json, from_json", "src/baderkit/core/labelers/bifurcation_graph/nodes.py: NodeBase.__eq__, NodeBase.to_dict, NodeBase.from_dict"]}
{"id": "C119", "title": "A supercell repeats the results of its cell", "statement": "Let a crystal be given by a cell and by a block of whole cells, each on its own grid, with densities stored times the volume of their cell. An ongrid run of the block gives as many copies of each basin as cells, each copy has one copy of each voxel of the basin, basins and atoms have the charges and volumes of those they are copies of, and the vacuum has the charge and volume of the cell times the number of cells. This holds if everything around a maximum is lower and no maxima are taken for one; for atoms if besides that the cell is orthogonal and each maximum has one nearest atom. It is false for a flat maximum through the cell and for a maximum halfway between two atoms, and grids from make_supercell give charges divided by the number of cells because the stored values are not multiplied. The same holds of runs of the weight method whose shares solve the flux equations, also for voxels shared by several basins; where flux is credited to a wrong basin it is false, and equivalent atoms of the block can have different charges. It is false of the neargrid method: edges between copies of one basin are refined in the block, while there are none in the cell, so the copies can have other voxels and charges; likewise of the neargrid-weight method.", "quantifier": "all grids, all blocks, all neighbour lists, all values, all atoms, all visiting orders of both runs", "why_tests_cant": "A test compares one cell with one block; the claim ranges over all cells, all blocks and all schedules.", "anchors": ["src/baderkit/core/bader/bader.py: Bader.run_bader, Bader.assign_basins_to_structure", "src/baderkit/core/bader/methods/ongrid/ongrid_method.py: OngridMethod._run_bader", "src/baderkit/core/bader/methods/weight/weight_method.py: WeightMethod._run_bader", "src/baderkit/core/toolkit/grid.py: Grid.make_supercell"]}
{"id": "C120", "title": "Results respect the symmetry of the crystal and the choice of the axes", "statement": "Let an operation with integer coefficients (a rotation, mirror, glide or another order of the axes) carry a crystal on its grid to a crystal on another grid, with the same values, neighbours and distances. Ongrid runs of both then give the same basins, carried along, with the same charges and volumes, whatever the order of the neighbours; atoms carried to one another have the same charge and volume, and so atoms that a symmetry of one crystal exchanges have equal charges. This holds if no voxel outside the vacuum has two equally steep neighbours, no maximum has an equally high neighbour and no maxima are taken for one; for atoms if besides that the cells are orthogonal and each maximum has one nearest atom. It is false with ties: the voxel on a mirror goes to one of two equivalent atoms, whose charges then differ. The same holds of runs of the weight method, ties or not, if every voxel that is no maximum has a higher facet neighbour and its shares solve the flux equations; where flux is credited to a wrong basin it is false, and the order in which voxels of one value are sorted decides. Neargrid runs agree under the conditions of ongrid runs if the operation carries the axes of the grid to axes, in either direction, and the gradients turn with the crystal, as the simple gradient of the library does, and the overdetermined one if its list of directions is carried along; so do neargrid-weight runs, if besides that the facet weights go along, the charge rises with the reference and is positive outside the vacuum. For operations that carry an axis to a diagonal the claim is false of neargrid runs: the same crystal on square and on tilted axes gives basins of other charges.", "quantifier": "all grids, all operations, all neighbour lists in any order, all values, all atoms, all visiting orders of both runs", "why_tests_cant": "A test compares one crystal with one image of it; the claim ranges over all crystals, all operations and all schedules.", "anchors": ["src/baderkit/core/bader/bader.py: Bader.run_bader, Bader.assign_basins_to_structure", "src/baderkit/core/bader/methods/ongrid/ongrid_method.py: OngridMethod._run_bader", "src/baderkit/core/bader/methods/weight/weight_method.py: WeightMethod._run_bader", "src/baderkit/core/bader/methods/neargrid/neargrid_numba.py: get_gradient_simple, get_gradient_pointers_simple, refine_fast_neargrid", "src/baderkit/core/bader/methods/shared_numba.py: get_best_neighbor"]}
{"id": "C121", "title": "The nearest atom of a feature is the nearest atom of the crystal", "statement": "For each irreducible feature of a bifurcation graph, `nearest_atom` is the atom of which some periodic image is nearest to the centre of the feature, the first in the structure among equally near ones, and `atom_distance` is that distance; `nearest_atom_species` is its species, and the distance listed for a feature whose only neighbour is its nearest atom is the same number. This holds in orthogonal cells with the atoms in the unit cell, and in cells of any shape when the distance is at most the distances between opposite faces; it is false in strongly skewed cells and for atoms given outside the unit cell.", "quantifier": "all cells, all structures, all basins and their maxima", "why_tests_cant": "A test checks one structure; the claim compares with all images of all atoms, infinitely many.", "anchors": ["src/baderkit/core/labelers/bifurcation_graph/nodes.py: IrreducibleNode.atom_dists, atom_distance, nearest_atom, nearest_atom_species, average_frac_coords, coord_dists", "src/baderkit/core/utilities/coord_env.py: get_dists_to_atoms"]}
{"id": "C122", "title": "Exported volumes are in the files the user expects", "statement": "The exporters of an analysis write one file per requested basin or atom, named after the grid (or the given prefix) with the index, one file for a union and one for a species; each has the requested data at the voxels of what was selected and zero elsewhere, the structure of the analysis (with the electrides if asked for), and no other file changes. All basins means the significant ones, all atoms every atom. The documented default format, that of the grid, and the second array of spin-polarised data are kept only for a species; otherwise the default is VASP and only the total is written. The BadELF analysis writes for the k-th requested atom the data with the first k atoms removed, and its export of all atoms always raises. A directory given as text or an unknown format raises and writes nothing.", "quantifier": "all analyses, arguments, selections and states of the directory", "why_tests_cant": "A test looks at one directory after one call; the claim is about every selection, every name and all other files.", "anchors": ["src/baderkit/core/bader/bader.py: write_basin_volumes, write_all_basin_volumes, write_basin_volumes_sum, write_atom_volumes, write_all_atom_volumes, write_atom_volumes_sum, write_species_volume", "src/baderkit/core/badelf/badelf.py: write_atom_volumes, write_all_atom_volumes, write_atom_volumes_sum, write_species_volume"]}
