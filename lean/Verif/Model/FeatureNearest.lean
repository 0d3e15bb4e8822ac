import Verif.Model.CoordEnv
import Verif.Model.Merge
import Verif.Model.Assign
/-!
# The atoms around a feature

Model of the distance getters of an irreducible node, `src/baderkit/core/labelers/bifurcation_graph/nodes.py:395-431,473-480`.

Simplifications.
* The getters are cached properties; the model has the value of the first reading.
* Cartesian coordinates of a structure are its fractional coordinates times the lattice.
-/
namespace BaderKit
variable {K : Type*} [Field K] [LinearOrder K] [FloorRing K]

/-- `frac_coords`, `nodes.py:395-397`: the maxima of the basins of the feature; an index without a maximum raises. -/
def featFracs (maxima : List (V3 K)) (basins : List ℕ) : Option (List (V3 K)) := basins.mapM fun b => maxima[b]?

/-- `average_frac_coords`, `nodes.py:399-401`. -/
def featCenter (maxima : List (V3 K)) (basins : List ℕ) : Option (V3 K) := (featFracs maxima basins).map mergeFrac

/-- `atom_dists` and `electride_dists`, `nodes.py:403-419`: `frac` are the atoms of the structure, or the atoms and electrides. -/
def featAtomDists (root : K → K) (L : M3 K) (frac maxima : List (V3 K)) (basins : List ℕ) : Option (List K) :=
  (featCenter maxima basins).map fun f => distsToAtoms root L f (frac.map fun a => vecMat a L)

/-- `atom_distance`, `nodes.py:421-423`: `np.min`; without atoms it raises. -/
def featAtomDistance (root : K → K) (L : M3 K) (frac maxima : List (V3 K)) (basins : List ℕ) : Option K :=
  (featAtomDists root L frac maxima basins).bind fun ds => ds.min?

/-- `nearest_atom`, `nodes.py:425-427`. -/
def featNearestAtom (root : K → K) (L : M3 K) (frac maxima : List (V3 K)) (basins : List ℕ) : Option ℕ :=
  (featAtomDists root L frac maxima basins).bind argmin

/-- `nearest_atom_species`, `nodes.py:429-431`. -/
def featNearestSpecies (root : K → K) (L : M3 K) (atoms : List (String × V3 K)) (maxima : List (V3 K)) (basins : List ℕ) : Option String :=
  (featNearestAtom root L (atoms.map Prod.snd) maxima basins).bind fun i => (atoms[i]?).map Prod.fst

/-- `coord_dists` and `coord_dists_e`, `nodes.py:478-480,520-522`: `atom_dists[coord_indices]`, an index beyond the end raises. -/
def featCoordDists (root : K → K) (L : M3 K) (frac maxima : List (V3 K)) (basins idx : List ℕ) : Option (List K) :=
  (featAtomDists root L frac maxima basins).bind fun ds => idx.mapM fun i => ds[i]?

end BaderKit
