import Verif.Model.Exporters
/-!
# What exported files should contain
-/
namespace BaderKit
variable {K : Type} [Zero K]

/-- A file has the reference (or charge) data at the voxels whose basin is in `B` and zero elsewhere. -/
def Shows (L : Exporter K) (useRef : Bool) (B : ℕ → Prop) (g : GridFile K) : Prop :=
  (∀ (v b : ℕ), L.labels v = b → B b → g.data v = if useRef then L.ref v else L.chg v) ∧
  (∀ v : ℕ, (∀ b : ℕ, L.labels v = b → ¬ B b) → g.data v = 0) ∧ g.isRef = useRef

/-- The basins of feature `i`. -/
def OfFeature (L : Exporter K) (i b : ℕ) : Prop := ∃ f : String × List ℕ, L.feats[i]? = some f ∧ b ∈ f.2

/-- The basins of the features of the given types. -/
def OfTypes (L : Exporter K) (types : List String) (b : ℕ) : Prop := ∃ (i : ℕ) (f : String × List ℕ), L.feats[i]? = some f ∧ f.1 ∈ types ∧ b ∈ f.2

/-- Only the named files of the directory may have changed. -/
def OnlyChanged {C : Type} (fs fs' : Files C) (d : String) (names : String → Prop) : Prop :=
  ∀ n : String × String, (n.1 = d → ¬ names n.2) → fs' n = fs n

end BaderKit
