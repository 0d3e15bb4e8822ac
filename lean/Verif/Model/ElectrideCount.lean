import Verif.Model.BadelfDim
import Verif.Model.BadelfRun
import Verif.Model.TextFormat
import Verif.Model.BifTree
/-!
# Counting electrons of electrides

Model of `Badelf.electrides_per_formula`, `electrides_per_reduced_formula`, `electride_formula` (`src/baderkit/core/badelf/badelf.py:904-952`), the same
getters and the totals of `SpinBadelf` (`badelf_spin.py:290-474`), and the totals of the features of `ElfLabeler` (`elf_labeler.py:676-775,855-877`,
`bifurcation_graph/nodes.py:387-393`).

Simplifications.
* `rnd` is `round(·, 10)`.
* The factor of the reduced formula and the text of the formula come from pymatgen and are parameters.
-/
namespace BaderKit
variable {K : Type} [Field K] [LinearOrder K] [FloorRing K]

/-- The getter `electrides_per_formula`, `badelf.py:914-919`, `badelf_spin.py:372-377`: the sum over the sites after the atoms; `charges` are the stored
charges, whose getter rounds; a missing charge is an `IndexError`. -/
def siteElectrides (rnd : K → K) (natoms nsites : ℕ) (charges : List K) : Option K :=
  ((List.range' natoms (nsites - natoms)).foldlM (fun (acc : K) i => (charges[i]?).map fun c => acc + rnd c) 0).map rnd

/-- `electrides_per_reduced_formula`, `badelf.py:931-939`, `badelf_spin.py:389-397`. -/
def electridesReduced (rnd : K → K) (count factor : K) : K := rnd (count / factor)

/-- `str` of an integer. For `badelf.py:952`, `badelf_spin.py:410`. -/
def strInt (n : ℤ) : Text := if n < 0 then '-' :: strNat n.natAbs else strNat n.natAbs

/-- `electride_formula`, `badelf.py:952`, `badelf_spin.py:410`, `elf_labeler.py:361`. -/
def electrideFormula (formula : Text) (count : K) : Text := formula ++ " e".toList ++ strInt (roundHE count)

/-- What the object of one spin channel reports. For `badelf_spin.py:415-474`. -/
structure ChannelTotals (K : Type) where
  vacCharge : K
  vacVolume : K
  electrons : K
  volume : K

/-- `vacuum_charge`, `vacuum_volume`, `total_electron_number`, `total_volume`, `badelf_spin.py:415-474`. -/
def spinTotals (rnd : K → K) (u d : ChannelTotals K) : ChannelTotals K :=
  ⟨u.vacCharge + d.vacCharge, (u.vacVolume + d.vacVolume) / 2, rnd (u.electrons + d.electrons), (u.volume + d.volume) / 2⟩

/-- `charge` and `volume` of the irreducible nodes, `nodes.py:387-393`, collected by `_get_feature_properties` and rounded, `elf_labeler.py:757-775,855-877`. -/
def featureSums (rnd : K → K) (g : BGraph K) (values : ℕ → K) : List K :=
  (g.nodes.filter fun k => !(g.node k).red).map fun k => rnd (((g.node k).basins.map values).sum)

/-- `total_electron_number` and `total_volume`, `elf_labeler.py:724-751`. -/
def labelerTotal (rnd : K → K) (g : BGraph K) (values : ℕ → K) (vacuum : K) : K := rnd ((featureSums rnd g values).sum + vacuum)

end BaderKit
