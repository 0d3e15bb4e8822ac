import Verif.Model.BadelfRun
import Verif.Model.Exporters
/-!
# Structures with dummy atoms

Model of the structures that list atoms, electrides and other features: `ElfLabeler.get_feature_structure` and `get_feature_structure_by_index`
(`src/baderkit/core/labelers/elf_labeler/elf_labeler.py:1334-1414`), `electride_structure` of the graph (`bifurcation_graph/graph.py:194-209`)
and `labeled_structure`, `structure`, `electride_structure`, `nelectrides` of `Badelf` (`badelf/badelf.py:221-298`).

Simplifications.
* A site is a symbol and a position; the symbol of a type is `dummySpecies` of `Model/Exporters`; labels are C54, oxidation states (removed, `elf_labeler.py:1405`) are left out.
* `_get_sorted_structure` (`badelf.py:177-218`) is called nowhere and not modelled.
* The positions of the features are given (`feature_average_frac_coords`).
-/
namespace BaderKit
variable {K P : Type} [Field K] [LinearOrder K]

/-- A site: symbol and position. For `elf_labeler.py:1408-1412`. -/
abbrev FSite (P : Type) := String × P

/-- `FEATURE_DUMMY_ATOMS.values()`, `enum_and_styling.py:37-50`. -/
def dummySymbols : List String := ["X", "Xs", "Xds", "Xc", "Z", "Z", "Z", "M", "Lp", "Zm", "E", "E"]

/-- `FeatureType.bare_species`, `enum_and_styling.py:157-162`. -/
def bareSpecies : List String := ["E", "E"]

/-- The site that is appended for a feature, `elf_labeler.py:1408-1412`. -/
def featureSite (fs : List (ElfFeature K)) (pos : ℕ → P) (i : ℕ) : Option (FSite P) := fs[i]?.map fun f => (dummySpecies f.kind, pos i)

/-- `get_feature_structure_by_index`, `elf_labeler.py:1384-1414`; `none` is an `IndexError`. -/
def structureByIndex (atoms : List (FSite P)) (fs : List (ElfFeature K)) (pos : ℕ → P) (idx : List ℕ) : Option (List (FSite P)) :=
  (idx.mapM (featureSite fs pos)).map fun l => atoms ++ l

/-- `get_feature_structure`, `elf_labeler.py:1334-1382`, with the indices. -/
def featureStructure (atoms : List (FSite P)) (fs : List (ElfFeature K)) (pos : ℕ → P) (included : String → Bool) (byType : Bool) :
    Option (List (FSite P) × List ℕ) :=
  let idx := featureOrder included byType fs
  (structureByIndex atoms fs pos idx).map fun s => (s, idx)

/-- `BifurcationGraph.electride_structure`, `graph.py:194-209`, also that of `ElfLabeler`, `elf_labeler.py:311-321`. -/
def graphElectrides (atoms : List (FSite P)) (fs : List (ElfFeature K)) (pos : ℕ → P) : List (FSite P) :=
  atoms ++ ((List.range fs.length).filterMap fun i => fs[i]?.bind fun f => if f.bare then some (dummySpecies f.kind, pos i) else none)

/-- `Badelf.labeled_structure`, `badelf.py:221-236`. -/
def badelfLabeled (atoms : List (FSite P)) (fs : List (ElfFeature K)) (pos : ℕ → P) : Option (List (FSite P)) :=
  (featureStructure atoms fs pos (fun k => decide (k ∈ valenceKinds)) true).map Prod.fst

/-- `Badelf.structure` from the labelled one, `badelf.py:239-260`: the species of the table are removed one after the other. -/
def withoutDummies (s : List (FSite P)) : List (FSite P) :=
  dummySymbols.foldl (fun (s : List (FSite P)) (d : String) => s.filter fun x => x.1 ≠ d) s

/-- `Badelf.electride_structure` from the labelled one, `badelf.py:263-286`. -/
def withElectrides (s : List (FSite P)) : List (FSite P) :=
  withoutDummies s ++ (s.filter fun x => x.1 ∈ bareSpecies).map fun x => ("E", x.2)

/-- `Badelf.nelectrides`, `badelf.py:289-298`. -/
def badelfElectrides (s : List (FSite P)) : ℕ := (withElectrides s).length - (withoutDummies s).length

end BaderKit
