import Verif.Model.BadelfDim
import Verif.Model.ElfCharges
/-!
# Spin-polarised ELF labels

Model of `SpinElfLabeler` (`src/baderkit/core/labelers/elf_labeler/elf_labeler_spin.py:44-318,388-505,538-596`) and of the charges in the
dictionaries (`elf_labeler.py:1860-1925`, `elf_labeler_spin.py:646-690`).

Simplifications.
* A site is an element of a type with an equality test `eqv` (that of pymatgen) and a symbol.
* The partition found from the ELF of a channel is given as the site of every voxel.
* The rounding to ten decimals is left out.
-/
namespace BaderKit

section
variable {σ : Type*}

/-- `labeled_structure` and `electride_structure`, `elf_labeler_spin.py:229-318`: the atoms, the features of the spin-up structure, named as they
are if they are in the spin-down structure and with `xu` otherwise, and the features of the spin-down structure that are not in the spin-up
structure, with `xd`. -/
def spinSites (eqv : σ → σ → Bool) (sym : σ → String) (atoms up down : List σ) : List (σ × String) :=
  (atoms.map fun a => (a, sym a)) ++
  ((up.drop atoms.length).map fun s => (s, if (siteIndex eqv down s).isSome then sym s else sym s ++ "xu")) ++
  (((down.drop atoms.length).filter fun s => (siteIndex eqv up s).isNone).map fun s => (s, sym s ++ "xd"))

/-- The loop over sites in `get_oxidation_and_volumes_from_potcar`, `elf_labeler_spin.py:497-503`; `val` is the dictionary of valence electrons. -/
def spinOxidation {K : Type*} [Field K] (val : String → Option K) (sites : List (σ × String)) (charges : List K) : List K :=
  List.zipWith (fun s q => (val s.2).getD 0 - q) sites charges

end

section
variable {K : Type} [Field K] [LinearOrder K]

/-- `np.allclose(up, down, rtol=0, atol=1e-4)`, `elf_labeler_spin.py:64-70`, on `n` voxels. -/
def equalSpin (n : ℕ) (refUp refDown : ℕ → K) : Bool := (List.range n).all fun v => decide (|refUp v - refDown v| ≤ 1 / 10 ^ 4)

/-- The charge grid of a channel, `grid.py:941-951`. -/
def chargeUp (total diff : ℕ → K) : ℕ → K := fun v => (total v + diff v) / 2

/-- The charge grid of the other channel. For `elf_labeler_spin.py:79-96`. -/
def chargeDown (total diff : ℕ → K) : ℕ → K := fun v => (total v - diff v) / 2

/-- The charge of the voxels with a property. For `elf_labeler_spin.py:560-577`. -/
def chargeOf (n : ℕ) (p : ℕ → Bool) (data : ℕ → K) : K := (((List.range n).filter p).map data).sum / n

/-- The labelers of the two channels, `elf_labeler_spin.py:79-96`: the partition and the charge of the spin-down labeler; with equal channels it
is the spin-up labeler. -/
def downLabeler (n : ℕ) (refUp refDown total diff : ℕ → K) (part : (ℕ → K) → ℕ → ℤ) : (ℕ → ℤ) × (ℕ → K) :=
  if equalSpin n refUp refDown then (part refUp, chargeUp total diff) else (part refDown, chargeDown total diff)

/-- `total_electron_number`, `elf_labeler_spin.py:560-577`. -/
def spinElectrons (n : ℕ) (refUp refDown total diff : ℕ → K) (part : (ℕ → K) → ℕ → ℤ) : K :=
  chargeOf n (fun _ => true) (chargeUp total diff) + chargeOf n (fun _ => true) (downLabeler n refUp refDown total diff part).2

/-- The charge of the site `a` that is in both channels (`elf_labeler_spin.py:411-439`), or of the vacuum with `a = -1` (`538-543`). -/
def spinSiteCharge (n : ℕ) (refUp refDown total diff : ℕ → K) (part : (ℕ → K) → ℕ → ℤ) (a : ℤ) : K :=
  let down := downLabeler n refUp refDown total diff part
  chargeOf n (fun v => decide (part refUp v = a)) (chargeUp total diff) + chargeOf n (fun v => decide (down.1 v = a)) down.2

/-- `to_dict`, `elf_labeler.py:1893-1921` and `elf_labeler_spin.py:674-690`: the recorded method and the charges, computed with the default
method. -/
def dictCharges (rnd : K → K) (m : Splitting) (useE : Bool) (radii en : ℕ → K) (atoms : ℕ) (fs : List (ElfFeature K)) :
    Splitting × Option ((ℕ → K) × (ℕ → K)) :=
  (m, chargesVolumes rnd .weightedDist useE radii en atoms fs)

end
end BaderKit
