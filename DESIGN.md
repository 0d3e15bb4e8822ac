# Formal model of baderkit: design

Source: `/repo` (SWeav02/baderkit at the pinned commit), read as text only; it was never built or run.
Model and proofs: Lean 4.33.0 + Mathlib, in `/verif/lean/Verif/`.

## Layout

* `Verif/Model/*.lean`  -- the model, one file per source area.  Every definition cites file and lines in `/repo`; simplifications are
  stated in the comment of the definition or at the head of the file.
* `Verif/Spec/*.lean`   -- small independent specifications (relations, sums, reachability), written without the model's helpers.
* `Verif/Lemmas/*.lean` -- helper lemmas.
* `Verif/Props/*.lean`  -- the property theorems (`C01_...`), with non-vacuity `example`s or concrete witness theorems beside them.
* `seeded/LOG.jsonl` -- the wrong programs tried against the theorems, one per line.

## Modelling conventions

* Integers are unbounded (`Nat`/`Int`).  Fixed-width overflow (`uint8`, `uint16`, `uint32`, `int8`) is not modelled unless a property says so.
* Floats are elements of an ordered field `K` (`Field`, `LinearOrder`, `IsStrictOrderedRing`), of `ℝ`, or, for comparison-only code, of a
  linear order.  Rounding error, NaN and inf are outside the model.  `round` is round-half-to-even where the property depends on it, otherwise
  an arbitrary rounding function.  The square root is a parameter with its defining property where `K` is abstract.
* A 3D numpy array of shape `(nx,ny,nz)` is a function of the flat (C-order) index; `C02` proves the identification with coordinates.
* `prange` loops: where the bodies write disjoint cells the model is a map; where they share state the model takes the processing order as an
  argument, or (C22, C57) consists of threads with program counters, and the theorem quantifies over orders or schedules.
* `while True` loops are functions with fuel returning `Option`; theorems state that some fuel suffices.
* Exceptions are `none`.  The state after an exception is not modelled unless a property says so (C29, C32, C58).
* numpy negative indexing is explicit (`pyIdx`) where the code can hit it.
* External routines (spline fit, `scipy.ndimage.label`, pymatgen symmetry and structure classes, `np.argsort` among ties) are parameters,
  with the part of their contract that is used as a hypothesis.
* Python text is `List Char`; formatting of floats is on exact rationals.

## Trusted base

Lean's kernel; the axioms `propext`, `Classical.choice`, `Quot.sound` (section "Axioms"; no others occur, no `sorry`, no `native_decide`, no
`bv_decide`); the reading of the Python code into the definitions under `Model/`; the conventions above; the specifications under `Spec/`.


## Plan and proof per property

The exact statements are in `properties.jsonl`, the theorem names in `MANIFEST.json`.  "Deviations" are statements a user would expect that are false of the code; each is proved false by a theorem with a concrete or general counterexample.

| id | modelled in | how proved | deviations of the code, proved |
|----|----|----|----|
| C01 Periodic wrapping of voxel coordinates | Index: `wrapAxis`, `wrapPoint`, `wrapPointShift` | case split, `omega`; uniqueness mod n | outside the window -n..2n the result is out of range |
| C02 Flat index and 3D coordinate are inverse | Index: `flatToCoords`, `coordsToFlat` | Euclidean division; bijection; order of the triple loop | - |
| C03 Union-find maintains exactly the generated equivalence relation | UnionFind: `findRoot`, `findRootNC`, `union` | invariant "forest of height at most n generated by the requests" over all histories; equality with `Relation.EqvGen` | - |
| C04 UnionFind groups partition the elements | UnionFind: the growing object, with `groups`, `groups_sets` and `bulk_union` | refinement to C03; `bulk_union` by cases of its loop | `bulk_union` is broken: `union` returns nothing, so its loop variable is None after the first pair (`C04_bulk_union`). numba typing is a parameter (`compiles`). `groups` passes a list to a function that reads `dtype`: the list is treated as an array. |
| C05 Shift-tracking union-find keeps consistent periodic positions | UnionFind: `findRootShift`, `unionShift` | potential invariant over all histories | - |
| C06 Root mask counts connected components | UnionFind: root mask | invariant over all histories | - |
| C07 Steepest neighbour choice | Voxels: `bestNeighbor` | fold invariant | - |
| C08 Local maxima mask is exact | Voxels: `getMaxima` | pointwise; order independence over permutations; existence by finiteness | - |
| C09 Ongrid assigns every non-vacuum voxel to the maximum reached by steepest ascent | Voxels: `steepestPointers`, `getRoots`, `rankLabels` | pointers strictly increase; composition of C07, C10, C11 | - |
| C10 Pointer jumping terminates and computes roots | Voxels: `getRoots` | rounds of doubling are iterates `p^[2^k]`; well-founded height | a pointer into the vacuum is followed to the last voxel |
| C11 Basin labels are exactly 0..M-1 and vacuum is -1 | Voxels: ranking by `np.unique` | rank in sorted deduplicated list | - |
| C12 Charge and volume conservation of basin integration | Voxels: accumulation | exchange of sums | - |
| C13 Basin edges are exact and symmetric | Voxels: `getEdges` | pointwise; neighbour symmetry | - |
| C14 Flat false maxima are all found | InitLabels: clean-up loop | least fixed point, both directions by induction on chains | - |
| C15 Each merged maximum has a representative of the highest value in its group | InitLabels: union of maxima with interpolation oracle | C03 plus fold for the highest | - |
| C16 Maximum list order matches basin labels | InitLabels: order of coordinates | equality for the weight method; `_partial` for ongrid (`C16_order_partial`) and neargrid (`C16_neargrid_order_partial`) under the order hypothesis | coordinate list in another order than the labels |
| C17 Weight method conserves charge and volume | Weight: all phases | invariant of the folds, weights sum to one, for every order of the parallel phases | - |
| C18 Weight method processes higher neighbours first and labels every voxel | Weight | induction over the sorted order | - |
| C19 Weight method sends flux to the basin the neighbour belongs to | Weight: flux phase with the stale variable | `_partial`: where the comparison is harmless; the voxels left without a basin by the first loop are those from which climbs end in several basins (`edge_shared`), so if a higher neighbour of the lowest voxel is shared and those listed before it are in one basin the stale label is -1 and all equations hold unless voxel 0 is shared. | flux credited to a wrong basin: `C19_flux_wrong`, `C19_voxel_zero` |
| C20 Neargrid pointers strictly increase | Neargrid: `gradientPointers` | C07 fallback | - |
| C21 Neargrid refinement climb terminates at a maximum | Neargrid: climb with path set | lexicographic measure (unvisited voxels, data) | climb runs forever when the vacuum is unrelated to the data |
| C22 Neargrid refinement visits each voxel at most once and is schedule independent | Neargrid: refinement rounds; thread model | invariants; commutation of steps; threads with shared arrays under every schedule | - |
| C23 Atom charges and volumes sum to basin totals | Assign: `bincount`, fancy indexing | exchange of sums | - |
| C24 Basins are assigned to the nearest atom image | Assign: distance matrix and argmin | minimum over considered images; orthogonal cells: minimum over the crystal (`_partial`); any cell: the same if the distance is at most half of each distance between faces (Cauchy-Schwarz with the reciprocal vectors) | skewed cells and unwrapped coordinates |
| C25 Derived Bader results never go stale | BaderState: cache as state machine | refinement to recomputation over all histories | `atom_avg_surface_distances`; grids changed from outside |
| C26 Exported basin/atom volumes partition the data | BaderState/Badelf: masks | pointwise; sums | Badelf exporter zeroes the selected atom |
| C27 VASP grid block round trip | VaspFile: character level writer and reader | list lemmas; `_partial`: numbers that fit their column | spin-orbit sets lost, augmentation string broken, wide values corrupt |
| C28 Fortran-style number formatting is faithful | `Model/TextFormat.lean`: decimal digits over ℚ, the Fortran form, the parser. | `_partial`: away from the carry and with two-digit exponents; numbers without a point (`C28_whole`) | carry to the next power of ten (`C28_carry_wrong`); three-digit exponents (`C28_wide_exponent`) |
| C29 Cube file round trip | `Model/CubeFile.lean`: header, numbers in the order of the writer, reader with the origin shift. | list lemmas; `_partial`: no origin, no tiny negative values; the volume of the voxels (`C29_volume`) | origin shift and mutated argument (`C29_origin_shift`, `C29_origin_mutated`), axis order (`C29_order_wrong`), tiny negatives (`C29_negative_tiny`) |
| C30 Spin splitting is exact | GridOps | ring | - |
| C31 Coordinate conversions are inverse | GridOps | 3x3 matrices | - |
| C32 Supercell data is the periodic tiling | GridOps: `make_supercell` | modular arithmetic; `_partial`: values and mean | data not scaled, point volume kept, spin raises |
| C33 Cubic B-spline weights are a partition of unity | Interp: B-spline weights | `nlinarith`, convexity | - |
| C34 Trilinear interpolation is exact on grid points and bounded | Interp: trilinear | convexity | reads out of bounds beyond two cells |
| C35 B-spline and nearest interpolation are lattice periodic | Interp: nearest, spline | floor lemmas; `_partial`: off the half-way points | half-way points on odd axes |
| C36 Nearest-neighbour search over periodic images is the minimum | CoordEnv: neighbour search | fold; orthogonal cells: minimum over the crystal (`_partial`); any cell: the same if the distance is at most each distance between faces | skewed cells |
| C37 Two nearest atoms of a feature | CoordEnv: three smallest | fold invariant | - |
| C38 Canonical displacement is direction independent | CoordEnv: canonical displacement | case analysis; `_partial`: off the ties | half-cell ties, order of symmetry operations |
| C39 Volume fraction under a plane is a fraction | CubeFraction | inclusion-exclusion formula equals Lebesgue volume, by integration | zero normal inverted |
| C40 Spin-resolved Badelf totals | BadelfDim: spin merge | list sums; positions | - |
| C41 Badelf fractional voxel assignment conserves charge | Badelf: voxel assignment | sums; `_partial`: voxels that match a site | unmatched voxel loses charge; ties use stale data; nearest site dropped |
| C42 ELF feature charges are fully distributed to atoms | ElfCharges: splitting | sums of shares | 'nearest' uses a list position; no neighbours raise; 'pauling' contrary to documentation |
| C43 Feature labels relabel exactly the requested features | ElfCharges: relabelling | fold | - |
| C44 Bifurcation tree operations keep the tree well formed | BifTree: node operations, clean-up | forest invariant over all histories; collapse and removal rules | two reducible roots raise; parent cycle accepted; only child collapse; stale depth; finite root raises |
| C45 Tree serialisation round trip | BifTree: dictionaries | induction over the node list | feature type and distance beyond atoms lost |
| C46 Connected groups equal periodic connectivity | Groups: growing solids, cycles | C05 with positions in the infinite crystal; Gram-Schmidt span; `_partial`: no two infinite groups joined | joined infinite groups counted too high; vacuum bridging; axis of length one fails |
| C47 The ELF radius is an extremum on the bond | ElfRadii: line scan and refinement | fold and bisection invariants | vacuum label read as last feature |
| C48 Small shift/neighbour encodings are bijective | Index encodings | `omega` | - |
| C49 Surface distances come from the basin's own edge voxels | Assign: surface distances; SurfaceRuns: the calls of Bader and BadELF with their edges | `_partial`: orthogonal cells, for Bader runs no vacuum edge voxels or not the last basin; the starting value of the minimum is never reached (wrapped vectors are shorter than 3/2 of the longest lattice vector) | vacuum edge voxels added to the last basin |
| C50 Neargrid-weight conservation | NeargridWeight with the labels of Neargrid (`nwRun`) | push pass invariant; whole run composed with C22: complete iff no maximum touches another basin; `_partial`: same order of charge and reference, no maximum among edges; `C50_flow` (`Props/NeargridWeightFlow.lean`): charges and volumes as the unique solution of the flow equations, by induction on the processed edges | edge maxima and other orders lose charge; vacuum charge not normalised |
| C51 Merged coordinates lie in the cell and respect periodicity | `Model/Merge.lean`: unwrapping around the first member, weighted mean, wrapping, the voxel taken for a merged maximum. | floor lemmas; convex hull; distance of at most half a voxel (`C51_merged_voxel`) | half-cell ties (`C51_half_cell_tie`); weights misaligned (`C51_misaligned_weights`) |
| C52 Transforms in radius are complete for orthogonal cells and sorted | Transforms | box enumeration; orthogonal completeness (`_partial`); any cell: completeness up to a shorter radius | skewed lattices |
| C53 Labels of connected regions are periodic components | GridLabel with scipy labelling contract | padded box paths; closure of connections | structure=None on a full array raises |
| C54 Site relabelling is unique and order preserving | ElfCharges/structure relabelling | list induction; `_partial` | `ignore_uniq` duplicates |
| C55 Oxidation states balance | GridOps: oxidation states | sums | - |
| C56 Electride dimensionality from voxel connectivity | `Model/BadelfDim.lean`: one evaluation, the bisection; `Model/ElectrideDims.lean`: mask, sites and cutoffs of a `Badelf`, the bisection with exceptions, the three getters with their fields, the maximum of two spin channels. `scipy.ndimage.label` is a function with the contract `IsLabelling`. | counting; bisection; rank of translations; the dimensionality only changes at values of voxels, so the threshold of C56_cutoff is the value of a voxel; invariant over sessions of reads | five directions raise (`C56_five_crash`); index at the end of an axis (`C56_index_crash`); cutoffs are lowest and not highest (`C56_cutoff_doc_wrong`); `None` is never returned (`C56_none_wrong`, `C56_session_no_electrides`); bent chains |
| C57 Root compression is correct under every thread interleaving | CompressRoots: threads with program counters | invariant of every single read/write step | - |
| C58 An object with a history behaves like a new one | BaderState: histories | equality with a new object; `_partial`: except the two listed | `atom_avg` getter, `vacuum_tol=True` |
| C59 Derived grid data follow the assigned data | GridOps: cached data | state machine; `_partial` | spin parts and spline coefficients stale; the masks of maxima and minima import a module that does not exist (`C59_masks_raise`) |
| C60 Linear combination of grids | GridOps: `linear_add` | ring | - |
| C61 A box around a point is the periodic neighbourhood | GridOps: `cubic_slice` | modular arithmetic; `_partial`: size 1 | box reaches one point up |
| C62 Gradients of the neargrid method | Neargrid gradients | algebra | - |
| C63 Parabolic refinement of maxima | `Model/Interp.lean`: the fit over the surrounding voxels, the solver (an exception for singular matrices), clamp, comparison with the values of the region, wrapping, the loop over the maxima. | case analysis on the solver; completing the square for the vertex (`C63_vertex`); the solver that raises leaves the maximum where it is (`C63_solver_fails`); the list in order (`C63_list`) | the clamp uses the size of the wrong axis: `C63_clamp_wrong`, `C63_clamp_axes` |
| C64 Line sampling | Interp: line | algebra | - |
| C65 Partition planes of the unit cell | Voronoi: planes | half-space geometry; `_partial` | whole cell lost, wrong metric, sites not reordered |
| C66 Site lookup within a tolerance | Badelf: site lookup | algebra; `_partial`: sound | point close to a site missed |
| C67 Both ends of a bond share one dividing plane | ElfRadii: bonds | canonical forms | - |
| C68 Miller indices give the plane normal | `Model/GridOps.lean`: Cartesian vector of Miller indices. | cross product; the side the vector points to (`C68_direction`) | zero indices give no direction (`C68_zero`) |
| C69 Neighbour translation tables are complete | Transforms tables | enumeration proved for all shapes | - |
| C70 Structure in VASP files | VaspFile: POSCAR part | list lemmas | vasp4 files unreadable; wide coordinates |
| C71 Format detection | CubeFile/VaspFile: detection | character lemmas | - |
| C72 Significant figures | TextFormat: figures | rounding lemmas | tiny data; sampling |
| C73 Domains of the bifurcation graph are connected components | DomainTree (with `levelDim`, the dimensionality from Groups) | level invariants; identification with components of the threshold graph; the dimensionality composed with C46 over the solids of all values so far | childless root has no maximum; values from 1e12 on; dimensionality too high after two infinite regions join (C46) |
| C74 Domains around an atom are found from the inside outwards | AtomRows: `surroundLoop` | induction on fuel; relation `SurroundChain` | mutual contact and deep nesting raise |
| C75 Domains are cut where the number of surrounded atoms changes | AtomRows | loop invariant over values; `_partial`: atoms only leave | exchanged atoms unnoticed; flat root loses children |
| C76 The bifurcation graph holds every basin exactly once | GraphBuild | composition of C73, C75, C44 | - |
| C77 Every saddle voxel is marked | Saddle: box scans with the union-find of C21 | group counts = classes of touching voxels; a marked voxel from any two unconnected neighbours | equal values hide a saddle; groups of equal voxels count; voxels next to vacuum skipped |
| C78 Basins are connected at the right values | Connections: `find_domain_connections` | maximum over neighbours, folds | connections at non-positive values lost |
| C79 The graph shows the connected regions above each value | composition of Saddle, Connections, DomainTree, Ongrid | induction on the number of higher voxels; a path of basins for each path of voxels | - |
| C80 Every feature gets the type its rules give | Model/Marking (marking of cores, shells, bonds, lone pairs, bare electrons on the graph of Model/BifTree; positions, neighbours and radii are parameters) | invariants of the loops over features and domains; each pass is local to the visited feature or keeps the types already given | without `combine_shells` shells have no effect; a bond without a common domain raises; late shells keep stale neighbours; the exception for untyped features is unreachable |
| C81 Contacts between voids and domains | Model/Contacts (get_connected_voids after the search for the groups, basin_domain_map, the group an atom starts in; every slab of the prange loop is a thread, an increment is a read and a write) | invariant: counter plus increments left is at most the total, a value that was read likewise, and a counter that was written is positive; one-thread invariant; sums over slabs; C46 for the voids | lost updates change the result (C81_lost_updates: 2 instead of 96; C81_schedule_decides: exception); an atom in a vacuum voxel gets a wrong void index, possibly past the end (C81_vacuum_atom) |
| C82 Exported feature volumes | Model/Exporters (file system as a map; write, rename, exceptions; the exporters of ElfLabeler, SpinElfLabeler and SpinBadelf) | every call is reduced to a list of assignments of names; names are compared as character lists (digits contain no underscore); `_partial` by type: reference data, species different | reference instead of charge, colliding species, only the first type or temporary names with equal channels, text or missing directory, removed files, format ignored |
| C83 Combined results of a spin-polarised ELF | Model/SpinLabels (combined structures, shortcut for equal ELF, oxidation states, charges in the dictionary); merge of C40 | list lemmas; sums over voxels; `_partial`: the total is right exactly with different ELF or without net moment | moment added with equal ELF (C83_total_wrong); splitting ignored (C83_splitting_ignored) |
| C84 Surface distances of ELF features | Model/FeatureSurface (map from basins to features, edges, distances; schedule and uninitialised memory are parameters) | C13 on the features of voxels; fold invariants of C49; norm estimate for the starting value; `_partial`: orthogonal cells for the average, short minima in any cell | skewed cells (C84_skewed_wrong); no surface (C84_no_surface) |
| C85 Radii, features and electrons of the sites of an electride structure | Model/SiteData (radii of sites from neighbour data, features of sites, highest values, electrides per formula; argsort is any sorting permutation) | first position in a sorted list; loop invariants with the list of what was added; `_partial`: neighbours with and without electrides agree in being one | missing site (C85_missing_site), shared features near electrides, exception for a site without feature, types without electrides |
| C86 Bonds and planes of all atoms from those of a few | Model/SymBonds (copying of bonds by symmetry operations, repeated rows, exception) | C66 for the lookup; exact copies by floor lemmas; scaling of the root | reported bond length is the radius (C86_distance_wrong); neighbour not found goes unnoticed (C86_neighbour_missed) |
| C87 Extent of a voxel and distance to the nearest lattice point | Model/GridGeom (extent of a voxel, distances to the corners of the cell) | convexity of the squared length along each edge; C41_inside for the planes | only the eight corners are compared: wrong in skewed cells (C87_skewed_wrong) |
| C88 What each method of a BadELF run assigns to electrides, atoms and the total | `_get_voxel_assignments` for all three methods on top of the models of the voxel assignment (C41), the feature labels (C43) and the splitting of features (C42), with `_zero_flux_feature_labels`, the radius, the filter of the transformations and the breaks (`Model/BadelfRun`). Given: features, basins, vacuum, planes; square root and sorts by contract. | Electrides: labels from `C88_zero_flux_labels`; the sequential part changes no site from `max_label` on (`badelfAssign_beyond`, induction over left-over and tied voxels). Shells: the sorted distances are split at the smallest distance with an atom; the break before the next distance is the first that counts (`C88_nearest_shell`). Totals from C41 and C42. | `C88_last_shell_lost`: the last shell has no break, so voxels decided only there are lost (total `_partial`). `C88_electrides_differ`: documentation says electrides agree, but shared features coordinated to an electride add charge in zero-flux. `C88_voronelf_ignores_planes`, `C88_voronelf_loses_shared`: the labels are not reset, so the planes are never used and shared features are written beyond the arrays. |
| C89 Whether merged maxima form a point, a ring or a cage | `get_pt_ring_cage` with the unwrapping relative to the first maximum (`Model/PointRing`). The singular value decomposition is a parameter with the contract `IsSvd` (extreme spreads over unit vectors), shown to be satisfiable over the reals (`exists_svd`). | Unwrapping gives the given images up to one common translation; centring removes it; both singular values are characterised by the spreads, so the test on their ratio is a statement about planes. | `C89_wide_order`: wide sets depend on the order of the maxima. Three collinear maxima are a ring (`C89_few`). |
| C90 Voronoi neighbours of a voxel | `point_neighbor_voronoi_transforms`, `facet_area` (`Model/VoxelFacets`). `scipy.spatial.Voronoi` is a parameter with the contract `VoronoiAt` for the ridges of one point (faces, each once, corners in order), met by explicit ridges for the cubic grid (`cube_voronoi`). | A vector with natural coefficients on an obtuse superbase is split into levels; the leads of the levels add up to at most the lead of the vector (`lead_levels`), so the points within two steps cut out the whole cell and only sums of the superbase can be neighbours. The fan of triangles telescopes to the vector area (`shoelace_fan`). | `C90_skewed_wrong`: in a leaning cell a neighbour is missed and a wrong one is returned; hence `_partial`. `C90_unordered_corners`: corners out of order give a wrong area. |
| C91 Symmetry data follows the structure | The cache of `Structure` (`Model/SymCache`): settings, analyzer, data, saved tuple of site objects in a store. The analysis and the comparison of sites are parameters; the contract `SameAnalysis` says that sites found equal give equal analyses. | Invariant over histories: what is kept is the analysis of the saved objects with the present settings; fresh objects never touch saved ones. | Settings after a read (`C91_settings_ignored`), changes in place (`C91_in_place_ignored`), a read of the analyzer before the data (`C91_analyzer_hides_change`). |
| C92 Planes that bound an atom | `_get_plane_equations`, the choice of candidates, `site_ranges`, `get_planes_on_surface` with the shortcut over keys (`Model/PlaneSelect`). CrystalNN and `get_neighbor_list` are parameters; of the intersection of half spaces only the contract that every corner (extreme point) of a bounded region is listed is used; shown for the cube. | A minimal set of half spaces with the same intersection exists; each of its planes holds an open piece of the boundary, so by Krein-Milman at least three corners (`three_corners`); affine symmetries map corners to corners. | Keys that collide (`C92_keys_collide`, `C92_faces_lost`), candidates in fractional coordinates (`C92_nearest_neighbours_lost`). An error of the intersection enters the debugger (`breakpoint()`). |
| C93 Regridding keeps the data in place | `regrid` (`Model/Regrid`). `scipy.ndimage.zoom` is modelled by its documentation (size of an axis, coordinate that is read); the interpolation of the requested order is a parameter, with the spline of C33 as instance. | Algebra of the coordinates; sums over a refined axis regrouped by residue; the weights of C33 sum to one, so translates of the spline keep the sum. | Displacement by half the difference of the voxel widths (`C93_position`, `C93_shift_zero`, `C93_finer`), charge and origin (`C93_charge_and_origin_lost`), kind of data (`C93_elf_split_wrong`). |
| C94 Values at points | `values_at`, `value_at`, `Interpolator`, `interpolate_points` with uninitialised memory and a schedule (`Model/Regrid`). | Fold invariant; C33 to C35 at grid points. | Unknown names return the memory (`C94_unknown_method`). |
| C95 Sites of structures with dummy atoms | `Model/FeatureSites.lean`: `get_feature_structure`, `get_feature_structure_by_index`, `electride_structure` of graph and labeler, `labeled_structure`, `structure`, `electride_structure`, `nelectrides` of `Badelf`. | List lemmas on the order of C43: the bare electrons come first, all symbols of features are dummies, filters keep exactly the atoms. | Atoms with the symbol of a feature are dropped from the structure of `Badelf` (`C95_ghost_atoms_dropped`, `C95_numbers_shift`); without the order by type the structures are not aligned (`C95_unordered`). |
| C96 Files are read and written in the format asked for | `Model/Commands.lean`: `Grid.from_dynamic`, `Grid.write`; readers, writers and detection are given. | Case analysis over the format argument; the round trip uses that written files are recognised (C71). | A format given as a string always fails when reading (`C96_text_fails`). |
| C97 Commands work on the files, selections and names they are given | `Model/Commands.lean`: keyword arguments of the constructors, the commands `run`, `badelf`, `label`, `split`, names of `regrid`, the parsing of selections. | Keyword lookup is evaluated for every argument; selections by induction over the list of words; names by a lemma on `strip`. | `badelf` ignores its files (`C97_badelf_other_files`, `C97_badelf_fails`), `--normalize-vacuum` has no effect, no selection is one empty word (`C97_no_selection`), names of `split` and `regrid` can coincide (`C97_split_names_wrong`, `C97_regrid_names`). |
| C98 Tables of results | `Model/Tables.lean`: columns of the data frames, width of a column, header, rows and footer of `write_atom_tsv` and `write_basin_tsv`; the fixed format with five decimals digit by digit; pandas keeps columns and order. | Splitting at tabs undoes joining; padding is removed by `strip`; digits parse back to the rounded number; errors add up. | none |
| C99 Summaries of results | `Model/Summaries.lean`: `to_dict` and `to_json` of the five classes over a table of results by name; kinds of values and `json.dumps` as the condition that no array or object is left; oxidation states; charges of `ElfLabeler` by the model of C42. | The collected keys are distinct, so every result is found once; conversions evaluated by kind; oxidation states through C55. | `Bader.to_json` with a POTCAR (`C99_bader_potcar`), the ignored splitting method (`C99_splitting_ignored`, `C99_splitting_wrong`), missing results of `SpinElfLabeler` (`C99_spin_missing`). |
| C100 Grids do not influence each other | `Model/GridObjects.lean`: a memory of arrays, grid objects with addresses, flag and caches; constructor, `copy`, `linear_add`, setters, edits in place, reads of cached attributes. | Refinement: the memory agrees with a session on values and no address is used twice, by induction over the session. | shared arrays (`C100_shared_array`), stale derived quantities of sums and edits (`C100_sum_stale`, `C100_edit_stale`), the flag (`C100_flag_stale`). |
| C101 Summing and converting files | `Model/FileTools.lean`: the commands `sum` and `convert` over given readers and writers; the sum of two grids by the model of C60. | C96 for reading and writing, C60 for the values. | spin lost by `convert` (`C101_convert_spin_lost`). |
| C102 Parallel loops give the same result under every schedule | `Model/Parallel.lean`: iterations as trees of single reads and writes, run by an arbitrary interleaving; the loops of `get_edges`, `get_steepest_pointers`, the first loop of BadELF, the two loops over planes (with the barrier between them), loops over rows and loops that write at given indices. | an invariant over every interleaving: private entries are those the iteration alone would leave, flags are set iff some iteration sets them; the results are linked to the sequential models (`getEdges`, `steepestPointers`, `inLabels`, `wrapVoronoi`). | none in these loops; loops that do race are treated in C22, C57 and C81. Memory is sequentially consistent. |
| C103 A complete Bader run accounts for every voxel, electron and unit of volume, atom by atom | `Model/BaderRun.lean`: the vacuum mask and its count, the composition maxima, clean-up, method (ongrid, neargrid, weight), charges and volumes of the basins, rounded getters, atoms, rounded totals. | composition of C09, C12, C16, C17, C18, C22, C23 and C24 with an error bound for the rounding; the vacuum on the reference grid is shown to satisfy the hypothesis on the mask used there. | with merged maxima the ongrid and neargrid labels are not in the order of the reported maxima, so atoms exchange their basins (`C103_wrong_atom`); with `use_reference_vacuum=False` (used by the ELF labeler) voxels below a vacuum voxel get the last basin (`C103_other_vacuum`). `neargrid-weight` (`Model/BaderRunNW.lean`, on C50): totals are wrong with a vacuum (`C103_neargrid_weight_vacuum`) or touching maxima. The refinement of the position of a maximum is a parameter. |
| C104 Counts of electride electrons and totals of features and of spin channels | `Model/ElectrideCount.lean`: the getters of `Badelf`, `SpinBadelf` and `ElfLabeler` that add up charges; factor and text of the formula are given. | sums of lists with an error bound for the rounding; composition with C88 (BadELF run), C40 (merged sites of two channels), C76 and C12 (features). | a missing charge is an exception (`C104_count`) |
| C105 Reading an ElfLabeler or a Badelf in any order | `Model/ElfState.lean`: the lazily filled fields of `ElfLabeler` (graph, neighbour data, radii with and without electrides) and of `Badelf` (planes, results) as a state machine; the steps of the labelling (C33, C76, C79 and others) are parameters that may raise and may change the graph before they raise. | invariant on the stored fields for arbitrary sessions. | exceptions are reported once, settings and method changed after a read give stale or mixed results: `C105_test_raises`, `C105_unfinished`, `C105_half_marked`, `C105_badelf_after_exception`, `C105_settings_ignored`, `C105_settings_mixed`, `C105_method_mixed`, `C105_method_ignored` |
| C106 What a plot shows after any session of assignments | `Model/Plotter.lean`: the settings of `StructurePlotter`, `GridPlotter` and `BaderPlotter` and the actors of the window as a state machine with one step per setter; `contour`, `extract_surface` and `contour_banded` of pyvista are parameters. | invariants for arbitrary sessions; direct computation for single assignments from arbitrary states. | setters update only part of the window: `C106_radius_shows_hidden`, `C106_table_shows_hidden`, `C106_stale_surface`, `C106_limits_stale`, `C106_band_stale`, `C106_picture_shows_hidden`, `C106_caps_missing`, `C106_flat_data`. Not modelled: background, axes, projection, exports to html, the Qt window. |
| C107 Where the parts of a plot are drawn | `Model/PlotGeometry.lean`: images at the boundary, outline, points and masked values, camera, slices over an ordered field with a square root; cosine and sine of the rotation are two numbers with squares adding to one; `d_hkl` of pymatgen is the inverse length of the reciprocal vector. | case analysis and vector identities (`ring`, Cauchy-Schwarz); the normal is expressed by the reciprocal vector, which gives its side. | `C107_slice_negative`, `C107_opposite_view` (normal on the wrong side, see `C68_direction`), `C107_hidden_shown`, `C107_slice_uncut`, `C107_atom_order`. |
| C108 The picture of a bifurcation graph | `Model/GraphPlot.lean`: `get_plot` up to plotly: heights by the recursive function over the graph of C44 (with fuel), scaling, lines, circles, boxes, legend flags, axis; colours, hover texts and title left out; `round(x, 4)` is a monotone function. | induction over the recursion with an invariant on the set of placed nodes (heights in an interval of the counter, leaves consecutive, subtrees separated). | a reducible node without children gives not-a-number heights; a widened box can leave the axis (C108_exceptions). |
| C109 Building and editing structures | `Model/StructureBuild.lean`: constructor, `insert`, `labels` setter, `merge_frac_coords` of `Structure`; arrays are rows of a store, dictionaries entries of a store; the pymatgen constructor and `insert` are external. | fold over the rows; `mod1` facts; case analysis. | in-place wrapping of the arrays of the caller; lists raise; Cartesian coordinates wrong (C109_cartesian_wrong); labels setter without effect; shared dictionary; merging raises. |
| C110 The controls of the window agree with the plot | `Model/Gui.lean`: the controls of the tabs, the plot of C106 and the visible basins as a state machine with one step per click or edit; Qt check boxes, spin boxes (monotone idempotent rounding) and pickers are external and described by their contracts. | invariant over events (settings after every assignment), reduction of events to sessions of C106 for what is drawn. | controls that are not set again after a second result (`C110_rerun`, `C110_rerun_lattice`); rows of unsorted structures (`C110_unsorted`); hidden atoms with a new radius (`C110_radius_shows_hidden`); a species radius that is entered unchanged (`C110_species_radius_same`). Not modelled: background, projection, camera, layout. |
| C111 Running and exporting in the window | `Model/GuiRun.lean`: fields, button, thread and result of the run tab as a state machine, the outcome of a run is a function of its inputs; `export_basins` with names as lists of characters. | induction over events; case analysis on names. | `C111_empty_enabled`, `C111_failed_then_press`, `C111_edit_then_press`, `C111_raised_stuck`, `C111_export_wrong_grid`, `C111_export_dotted_directory`, `C111_export_only_extension`, `C111_export_cancelled`. Trusted: Qt ends the process when a `QThread` whose thread runs is destroyed. |
| C112 The view of a plot and the fitted picture of a slice | `Model/Camera.lean`: setters of view indices, rotation and position, the button of the window, as a state machine over `get_camera_position_from_miller` of C107; `reset_camera` is external and keeps the line of sight; `_set_camera_tight` with exact arithmetic, nan as an exception of `round`. | invariant over the session; bounds of a projected box; sign analysis. | `C112_button`, `C112_stale`, `C112_cut`, `C112_diagonal`, `C112_off_centre`, `C112_margin`. |
| C113 The neighbours of a feature | `Model/Coordination.lean`: the getters `coord_indices`, `coord_indices_e`, `coord_species` with what they store, the type setter, the electride structures and the hover texts of `get_plot`; `CrystalNN.get_nn_info` and `nearest_atom` are parameters (contract where needed: the search names only sites it was given). `atom_dists`, the other lines of the hover text and the internal assignments of the labeler to `_coord_indices` (`C33`) are outside. | Invariant over sessions: a stored list is never changed and the types follow the assignments; position of a bare feature in the filtered list by induction; fold invariant for the plot. | Stored lists go stale (`C113_stale`); a feature that is its own neighbour makes the species and the plot raise (`C113_no_plot`). |
| C114 When two nearby maxima count as one | `Model/SameMax.lean`: the test of a pair of maxima on the interpolated values between them (distance, minima, peaks, relative depth); the values come from `linear_slice` (C28) and the positions of the maxima are parameters. | membership and sortedness of the filtered lists, then equivalence with a specification that speaks of dips and peaks; explicit profiles for the exceptions; `C114_pair`: exactly when a pair is united. | `C114_ripple`, `C114_zero`, `C114_undefined`. |
| C115 Units and zero of the grids | `Model/BaderRun.lean` as for C103, run on two reference grids or three charge grids with the same parameters (`RunAid`, e.g. the test of C114, which is invariant under scaling by `C114_units` and not under an offset by `C114_zero`). | Every comparison in the run is shown to be invariant under a strictly monotone or affine map, all folds by relations between two or three states. Neargrid-weight (`Props/RunUnitsNW.lean`): the rows of the edge voxels are invariant; charges by the flow equations of C50, which are linear and have one solution. | `C115_neargrid_unit`: the limit 1e-30 of `neargrid` is absolute; hence `C115_run_partial` asks that no gradient crosses it. `C115_neargrid_weight_order`: charges of neargrid-weight are not additive, as the charge decides the order of the edge voxels; `C115_neargrid_weight_charges_partial` where both densities rise with the reference. |
| C116 Results do not depend on where the origin of the grid is | `Model/BaderRun.lean` as for C103, run twice: once as given, once on grids whose values sit at the voxels moved by a whole-voxel shift, with independent schedules, sort orders and candidates. | Specification `OriginMoved`, `SameBasins`, `SiteMoved` in `Props/Origin.lean`. The move is a bijection of voxels that commutes with neighbour steps; steepest ascents are carried over, and the groups of maxima are characterised without reference to voxel order. The neargrid method (`Props/OriginNeargrid.lean`): pointers, stored gradients, near-grid trajectories (with visited voxels and left-over offsets), edge voxels and the set of refined voxels are carried over for every gradient field that moves along, in particular both gradients of the library (`gradMoved_simple`, `gradMoved_over`). The neargrid-weight method (`Props/OriginNW.lean`): the flow equations of C50 are carried over and have one solution. | `C116_plateau` (a flat shoulder gives one basin or two) and `C116_merged` (atoms exchange charges), and `C116_weight` (weight method, flux credited to a wrong basin), all by a move of the origin; the weight method by C120 with the identity as matrix (`Props/OriginWeight.lean`), visiting voxels in the order of the code (`RunInput.sortedVoxels`); hence the positive theorems are `_partial`. |
| C117 The bifurcation graph of a labeler is the tree of connected regions | `Model/FromLabeler.lean`: `from_labeler` from the grid, labels and maxima to the nodes, before the clean-up (C45-C48): saddle masks, connections, `np.unique`, domains, values, voids and contacts at each value, early stop, rows, nodes. `labeler.bader` and the reading of the settings are inputs (`LabelerIn`); schedules, never-written cells, square root and bounds on rounds are the `Machine`. | The theorems of C46, C73, C75-C79 and C81 are chained; what each part needs (connected grid, distinct rows, values that are values of the grid, the stop that changes nothing, every voxel outside the void in exactly one current domain) is proved about the part before it. A concrete grid with two basins meets all hypotheses and yields a graph. | Hypotheses `MeetsAboveMin` (refuted without it: `C75_flat_root_loses_children`) and that the search around the atoms ends (C75: two finite groups that point at each other raise). |
| C118 Writing and reading a bifurcation graph, and asking what is in it | `Model/GraphDict.lean`: the dictionaries as objects in a memory (nodes, graphs, options), `to_dict`, `from_dict` with the entries it removes or replaces, `dict(d)`, `to_json`, `from_json`, `__eq__` and `__contains__`. Text of the structure and JSON of the options are parameters. | The round trip of C45 lifted to the memory; which addresses each call touches, by induction over the nodes. Membership by induction over the list. | The behaviour that the names do not suggest is part of the statement and proved: `C118_consumed`, `C118_shallow_copy`, `C118_shared_options`, `C118_radii_lost`, `C118_contains_raises`, `C118_stale_node`. |
| C119 A supercell repeats the results of its cell | The whole run of `Model/BaderRun.lean`, twice: `RunInput.run` with the ongrid and with the weight method for the cell and for the block; `makeSupercell` of `Model/GridOps.lean` for the grids the library makes itself. | Folding the block onto the cell commutes with the neighbour steps, so local maxima, steepest steps and ascents fold and lift. Moving the block by whole cells is a change of origin (C116), so with the unique ascent of C09 each basin of the block is one copy. Sums over basins by bijections; the atoms by uniqueness of the nearest image. Weight method: the shares of a copy in all copies of a basin add up to the share in the basin, by induction from high to low, and moves by whole cells make the copies equal. | Full claim false: `C119_plateau`, `C119_halfway`, `C119_weight`; `C119_tiled` for `make_supercell`. Proved where maxima are peaked and apart, atoms in orthogonal cells with one nearest atom; weight method where its shares solve the flux equations. False for neargrid (`C119_neargrid`, `Props/SupercellNeargrid.lean`: sharp maxima, the gradient of the library, and other charges in the block) and neargrid-weight (`C119_neargrid_weight`, `Props/SupercellNW.lean`). |
| C120 Results respect the symmetry of the crystal and the choice of the axes | The whole run of `Model/BaderRun.lean`, twice: `RunInput.run` with the ongrid, the neargrid and the weight method before and after the operation. | Carried voxels are a bijection that commutes with the neighbour steps; without ties the first steepest neighbour in the list is the only steepest neighbour, so the order of the list does not matter and ascents are carried along. Sums over basins by the bijection; atoms by uniqueness of the nearest image under a map that keeps distances. Weight method: the flux equations have one solution, by induction from high to low, so shares are carried along. Neargrid (`Props/SymmetryNeargrid.lean`): rounding half to even is odd and acts on each component, so pointers, trajectories with their offsets, edges and refined voxels are carried along by signed permutations of the axes. Neargrid-weight (`Props/SymmetryNW.lean`): the rows of the edge voxels go to permuted rows, so the flow equations of C50 are carried along. | Full claim false: `C120_tie`, `C120_weight`. Proved where voxels have one steepest neighbour and maxima are peaked and apart, atoms in orthogonal cells with one nearest atom; weight method where its shares solve the flux equations. Neargrid (`C120_neargrid_partial`) only for operations that carry grid axes to grid axes: rounding and division by the largest component do not commute with other integer matrices, and `C120_neargrid_axes` shows that results then differ; the neargrid-weight method (`C120_neargrid_weight_partial`) under the same restriction, where charge and reference rise together and the charge is positive. |
| C121 The nearest atom of a feature is the nearest atom of the crystal | `Model/FeatureNearest.lean`: the getters of an irreducible node, on `mergeFrac` (C51), `distsToAtoms` (C36) and `argmin` (C24). | The centre lies in the unit cell, so one of the 27 images is nearest in an orthogonal cell; elsewhere the norm estimate of C36. First smallest entry of the list. | `_partial`: orthogonal cells; `C121_short` for the others; false in general: `C121_skewed_wrong`, `C121_outside_wrong` |
| C122 Exported volumes are in the files the user expects | `Model/VolumeFiles.lean`: the exporters of `Bader` and `Badelf` with the files of C82: names, arrays, format, structure. | Loops of assignments to distinct names; membership of labels in lists; for `Badelf` an induction over the loop that zeroes one array. | The source format and the second array are lost per basin, per atom and for unions (`C122_source_format_lost`); `Badelf` zeroes the atom instead of keeping it (`C122_badelf_inverted`); `Badelf.write_all_atom_volumes` calls a method that does not exist (`C122_badelf_all_raises`); `C122_raises`. |
## Modelled code, file by file

Generated from the citations in the model.  "Definitions without a model" are the functions of the file of which no line is cited; `-` means
that every function is cited at least in part.  What is simplified in a modelled function is said in the comment of its definition and in the
head of its module.

| file under `src/baderkit` | modules under `Verif/Model` | definitions without a model |
|----|----|----|
| `command_line/base.py` | Commands, FileTools | `base_command`, `version`, `gui` |
| `core/badelf/badelf.py` | BadelfDim, BadelfRun, Commands, ElectrideCount, ElectrideDims, ElfState, FeatureSites, GridOps, Summaries, SurfaceRuns, Tables, VolumeFiles, Voronoi | `min_surface_distances`, `avg_surface_distances` |
| `core/badelf/badelf_numba.py` | Badelf, Parallel | - |
| `core/badelf/badelf_spin.py` | BadelfDim, Commands, ElectrideCount, ElectrideDims, Exporters, Summaries, Tables | `structure` |
| `core/bader/bader.py` | Assign, BaderRun, BaderRunNW, BaderState, Commands, CubeFile, GridOps, Summaries, SurfaceRuns, Tables, Vec, VolumeFiles | `from_vasp`, `from_cube`, `copy` |
| `core/bader/methods/base.py` | BaderRun, BaderRunNW, BaderState, InitLabels, Voxels | `__init__`, `maxima_mask`, `maxima_frac`, `car2lat`, `dir2lat`, `copy` |
| `core/bader/methods/gradient_weight/gradient_weight_method.py` | - | all |
| `core/bader/methods/gradient_weight/gradient_weight_numba.py` | - | all |
| `core/bader/methods/neargrid/neargrid_method.py` | BaderRun, Neargrid, Voxels | - |
| `core/bader/methods/neargrid/neargrid_numba.py` | Neargrid | `get_gradient_pointers_overdetermined` |
| `core/bader/methods/neargrid_weight/neargrid_weight_method.py` | BaderRunNW, NeargridWeight | - |
| `core/bader/methods/neargrid_weight/neargrid_weight_numba.py` | NeargridWeight | - |
| `core/bader/methods/ongrid/ongrid_method.py` | BaderRun, InitLabels, Voxels | - |
| `core/bader/methods/ongrid/ongrid_numba.py` | Parallel, Voxels | - |
| `core/bader/methods/shared_numba.py` | Assign, GridOps, Index, InitLabels, Merge, Parallel, SameMax, Vec, Voxels | - |
| `core/bader/methods/weight/weight_method.py` | BaderRun, Weight | - |
| `core/bader/methods/weight/weight_numba.py` | Index, Parallel, Weight | - |
| `core/labelers/bifurcation_graph/enum_and_styling.py` | BadelfRun, Coordination, Exporters, FeatureSites, Marking | `__get__`, `__str__`, `__repr__`, `reducible_types`, `irreducible_types`, `subtypes`, `plot_color`, `atomic_species`, `valence_species`, `covalent_types`, `covalent_species`, `shared_types`, `shared_species` |
| `core/labelers/bifurcation_graph/graph.py` | BifTree, Connections, Coordination, FeatureSites, FromLabeler, GraphBuild, GraphDict, GraphPlot, Marking, SiteData | - |
| `core/labelers/bifurcation_graph/graph_numba/bifurcation_base.py` | Groups, PointRing, Saddle, Transforms | - |
| `core/labelers/bifurcation_graph/graph_numba/domain_bifurcations.py` | Connections, DomainTree, FromLabeler, Groups, UnionFind | - |
| `core/labelers/bifurcation_graph/graph_numba/surrounded_atoms.py` | AtomRows, Contacts, FromLabeler | - |
| `core/labelers/bifurcation_graph/nodes.py` | BifTree, Coordination, ElectrideCount, FeatureNearest, GraphDict, Marking, PointRing | `domain_subtype`, `parent`, `is_infinite`, `nearest_atom_sphere`, `dist_beyond_atom`, `min_surface_dist`, `avg_surface_dist` |
| `core/labelers/elf_labeler/elf_labeler.py` | Commands, ElectrideCount, ElfCharges, ElfState, Exporters, FeatureSites, FeatureSurface, Marking, SiteData, SpinLabels, Summaries | - |
| `core/labelers/elf_labeler/elf_labeler_numba.py` | FeatureSurface, Parallel | - |
| `core/labelers/elf_labeler/elf_labeler_spin.py` | Commands, Exporters, SpinLabels, Summaries | - |
| `core/labelers/elf_labeler/elf_radii.py` | ElfRadii, PlaneSelect, SymBonds | `__init__`, `_get_elf_radii_and_type`, `_get_neigh_info_from_pymatgen`, `_get_plane_points_vectors` |
| `core/labelers/elf_labeler/elf_radii_numba.py` | ElfRadii, Vec | `get_elf_radius`, `get_elf_radii` |
| `core/toolkit/grid.py` | BaderState, Commands, GridGeom, GridLabel, GridObjects, GridOps, GuiRun, Index, Interp, Regrid, SpinLabels, Transforms, VolumeFiles, VoxelFacets, Weight | `prefix`, `total`, `shape`, `grid_resolution`, `get_radial_neighbor_transforms`, `get_voxel_coords_from_index`, `get_voxel_coords_from_neigh_CrystalNN`, `from_cube`, `from_vasp_pymatgen`, `from_hdf5` |
| `core/toolkit/interpolator.py` | Regrid | `__init__` |
| `core/toolkit/structure.py` | StructureBuild, SymCache, Transforms | `reduced_formula`, `site_symbols`, `to` |
| `core/toolkit/union_finder.py` | UnionFind | - |
| `core/utilities/basic.py` | Index, Interp, Merge, Transforms | `dist`, `mutiple_dists` |
| `core/utilities/coord_env.py` | CoordEnv | `frac2cart_numba`, `check_all_covalent` |
| `core/utilities/file_parsers.py` | Commands, CubeFile, GridObjects, GuiRun, TextFormat, VaspFile | `writer` |
| `core/utilities/interpolation.py` | Interp, Regrid, Vec | - |
| `core/utilities/union_find.py` | CompressRoots, UnionFind | - |
| `core/utilities/voronoi.py` | CubeFraction, Parallel, SymBonds, Voronoi | `get_neighs_in_planes` |
| `plotting/core/defaults.py` | - | all |
| `plotting/core/plotter.py` | Camera, Gui, PlotGeometry, Plotter | `_export_html`, `get_plot_html` |
| `plotting/gui/main.py` | Gui | `__init__`, `run_app` |
| `plotting/gui/tabs/atom_tab.py` | Gui | `__init__`, `clear_tree_widgets`, `_clear_item_widgets_recursive` |
| `plotting/gui/tabs/bader_tab.py` | GuiRun | - |
| `plotting/gui/tabs/basin_tab.py` | Gui | `__init__`, `clear_tree_widgets`, `_clear_item_widgets_recursive` |
| `plotting/gui/tabs/export_tab.py` | GuiRun | `__init__`, `set_bader`, `export_image`, `write_image` |
| `plotting/gui/tabs/style_tab.py` | - | all |
| `plotting/gui/tabs/surface_tab.py` | Gui | - |
| `plotting/gui/tabs/view_tab.py` | Camera, Gui | - |
| `plotting/gui/widgets/centered_widget.py` | - | all |
| `plotting/gui/widgets/color_picker.py` | Gui | `__init__`, `set_color`, `color`, `choose_color` |
| `plotting/gui/widgets/error_window.py` | - | all |
| `plotting/gui/widgets/file_picker.py` | - | all |
| `plotting/gui/widgets/float_select.py` | Gui | `_emit_value` |
| `plotting/gui/widgets/int_select.py` | - | all |

## Not modelled

* `tests/`, `core/badelf/exact_split_tests.py`: not part of what a user runs.
* `core/bader/methods/neargrid_old`, `gradient_weight`: not among the methods a user can select.
* The definitions in the last column above.  Most are short accessors, readers that only pass on to pymatgen or HDF5, and rendering by pyvista,
  plotly and Qt.  Not of this kind are `get_gradient_pointers_overdetermined` (behind a private switch; the choice of the neighbour for any
  gradient is modelled in `Neargrid`), `get_elf_radii` and `get_neighs_in_planes`
  (called by nothing in the package), `check_all_covalent` (a loop over the modelled `check_covalent`), and the distances of a feature in
  `nodes.py` (calls of the modelled `get_dists_to_atoms` and `merge_frac_coords`).
* Floating-point rounding, NaN and infinity, fixed-width overflow and unset memory, unless a property names them.
* Memory layout, numba compilation, time and memory use apart from termination.
* The contents of external calls (pymatgen, spglib, scipy, numpy sorting among equal values, pyvista): they are parameters with the contracts
  written at the theorems.

## Seeded errors

`seeded/LOG.jsonl` has one line per edited definition.  A line whose edit leaves every English claim true says so in its note; edits that did
not compile are not counted.  A line in which no theorem failed is followed by a later line for the same edit with the tightened theorem.

## Axioms

From `#print axioms` on every theorem of `MANIFEST.json` (769 theorems).

* Classical.choice, Quot.sound, propext: all others (624)
* Quot.sound, propext: C02_loop_order, C04_bulk_union, C08_schedule_independent, C13_schedule_independent, C13_neighbors26, C26_selected, C27_total_only, C27_aug_lines, C37_three_smallest, C42_no_neighbours_raise, C44_add, C44_parent_cycle, C44_depth_to_infinite_root, C49_vacuum_border, C56_none_wrong, C56_session, C56_session_raises, C56_session_no_electrides, C56_spin, C58_atom_avg_history, C59_fresh_partial, C59_masks_raise, C59_stale, C60_linear_add, C60_linear_add_inverse, C61_cubic_slice_partial, C63_clamp_axes, C63_solver_fails, C65_images, C65_kept, C67_consistent, C68_zero, C69_faces, C74_chain_unique, C74_listed_once, C81_unlabelled_last, C82_str_directory, C82_none_directory, C85_no_neighbours, C85_shared_listed, C85_sole_missing, C85_max_raises, C86_same_radius, C87_some_lattice_point, C89_few, C94_unknown_method, C95_unordered, C96_read, C96_write_read, C96_write_text, C97_run, C97_label, C97_badelf_other_files, C97_selection, C97_no_selection, C99_bader_partial, C99_bader_potcar, C99_badelf, C99_spin_badelf, C99_splitting_ignored, C100_sum_stale, C100_edit_stale, C101_sum, C101_sum_refused, C101_convert_partial, C101_convert_spin_lost, C103_tolerance, C105_reads_partial, C105_test_raises, C105_unfinished, C105_half_marked, C105_no_graph, C105_first_answer, C105_settings_ignored, C105_badelf_partial, C105_badelf_after_exception, C105_method_ignored, C106_atoms_partial, C106_radius_shows_hidden, C106_visible_restored, C106_table_shows_hidden, C106_lattice, C106_surfaces_partial, C106_surfaces_restored, C106_stale_surface, C106_limits_stale, C106_band_stale, C106_range, C106_picture_partial, C106_picture_shows_hidden, C107_outline, C108_no_crossing, C109_lists_raise, C109_labels_ignored, C109_insert, C109_shared_properties, C109_merge_raises, C110_rerun, C110_rerun_lattice, C110_unsorted, C110_sets, C110_exact, C110_atom_box, C110_species_box, C110_species_color, C110_species_radius, C110_species_radius_same, C110_radius_shows_hidden, C111_result, C111_empty_enabled, C111_edit_then_press, C112_refused, C113_sites, C113_stale, C113_no_plot, C117_any_order, C118_to_dict_pure, C118_radii_lost, C118_contains_key, C121_defined, C122_raises
* propext: C01_wrap_shift, C08_threshold_upClosed, C10_vacuum_pointer_wrong, C25_mutation_stale, C56_directions, C58_true_tolerance, C74_mutual_contact_raises, C81_vacuum_atom, C81_lost_updates, C81_schedule_decides, C85_types_without_electrides, C95_numbers_shift, C97_normalize_ignored, C97_badelf_fails, C100_flag_stale, C111_safe_partial, C111_button, C111_failed_then_press, C111_raised_stuck, C118_contains_raises, C122_badelf_all_raises
* none: C96_text_fails, C105_settings_mixed, C105_method_mixed

