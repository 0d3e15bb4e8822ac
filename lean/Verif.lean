import Verif.Props.Index
import Verif.Props.Voxels
import Verif.Props.UnionFind
import Verif.Props.CompressRoots
import Verif.Props.InitLabels
import Verif.Props.Merge
import Verif.Props.Ongrid
import Verif.Props.Weight
import Verif.Props.WeightLabels
import Verif.Props.NeargridPipeline
import Verif.Props.Assign
import Verif.Props.BaderState
import Verif.Props.GridOps
import Verif.Props.Gradient
import Verif.Props.Interp
import Verif.Props.CoordEnv
import Verif.Props.CubeFraction
import Verif.Props.Voronoi
import Verif.Props.Partition
import Verif.Props.Badelf
import Verif.Props.BadelfDim
import Verif.Props.BadelfSpin
import Verif.Props.ElfRadii
import Verif.Props.Transforms
import Verif.Props.DimRank
import Verif.Props.TextFormat
import Verif.Props.VaspFile
import Verif.Props.SigFigs
import Verif.Props.CubeFile
import Verif.Props.VaspHeader
import Verif.Props.Groups
import Verif.Props.GridLabel
import Verif.Props.NeargridWeight
import Verif.Props.BifTree
import Verif.Props.ElfCharges
import Verif.Props.FeatureSurface
import Verif.Props.SiteData
import Verif.Props.ElfLabels
import Verif.Model.DomainTree
import Verif.Spec.DomainTree
import Verif.Lemmas.DomainLinks
import Verif.Lemmas.DomainLevels
import Verif.Lemmas.DomainRows
import Verif.Props.DomainTree
import Verif.Model.AtomRows
import Verif.Model.GraphBuild
import Verif.Spec.AtomRows
import Verif.Spec.GraphBuild
import Verif.Lemmas.AtomRows
import Verif.Lemmas.GraphBuild
import Verif.Props.AtomRows
import Verif.Props.GraphBuild
import Verif.Props.BifRules
import Verif.Props.GroupsVac
import Verif.Model.Saddle
import Verif.Spec.Saddle
import Verif.Lemmas.Saddle
import Verif.Props.Saddle
import Verif.Model.Connections
import Verif.Spec.Connections
import Verif.Lemmas.Connections
import Verif.Props.Connections
import Verif.Props.Solids
import Verif.Model.Marking
import Verif.Spec.Marking
import Verif.Lemmas.Marking
import Verif.Lemmas.Marking2
import Verif.Props.Marking
import Verif.Model.Contacts
import Verif.Spec.Contacts
import Verif.Lemmas.Contacts
import Verif.Props.Contacts
import Verif.Props.NearestGeneral
import Verif.Model.Exporters
import Verif.Spec.Exporters
import Verif.Lemmas.Exporters
import Verif.Props.Exporters
import Verif.Model.SpinLabels
import Verif.Props.SpinLabels
import Verif.Props.SymBonds
import Verif.Model.GridGeom
import Verif.Props.GridGeom
import Verif.Model.BadelfRun
import Verif.Props.BadelfRun
import Verif.Model.PointRing
import Verif.Props.PointRing
import Verif.Model.VoxelFacets
import Verif.Props.VoxelFacets
import Verif.Model.SymCache
import Verif.Props.SymCache
import Verif.Model.PlaneSelect
import Verif.Lemmas.Facets
import Verif.Props.PlaneSelect
import Verif.Model.Regrid
import Verif.Props.Regrid
import Verif.Model.FeatureSites
import Verif.Props.FeatureSites
import Verif.Model.Commands
import Verif.Props.Commands
import Verif.Model.Tables
import Verif.Props.Tables
import Verif.Model.Summaries
import Verif.Props.Summaries
import Verif.Model.GridObjects
import Verif.Props.GridObjects
import Verif.Model.FileTools
import Verif.Props.FileTools
import Verif.Model.Parallel
import Verif.Lemmas.Parallel
import Verif.Props.Parallel
import Verif.Model.BaderRun
import Verif.Props.BaderRun
import Verif.Model.ElectrideCount
import Verif.Props.ElectrideCount
import Verif.Model.ElfState
import Verif.Props.ElfState
import Verif.Model.Plotter
import Verif.Props.Plotter
import Verif.Model.PlotGeometry
import Verif.Props.PlotGeometry
import Verif.Model.GraphPlot
import Verif.Lemmas.GraphPlot
import Verif.Props.GraphPlot
import Verif.Model.StructureBuild
import Verif.Props.StructureBuild
import Verif.Model.Gui
import Verif.Props.Gui
import Verif.Model.GuiRun
import Verif.Props.GuiRun
import Verif.Props.LevelDim
import Verif.Model.Camera
import Verif.Props.Camera
import Verif.Props.NeargridWeightRun
import Verif.Model.Coordination
import Verif.Props.Coordination
import Verif.Model.SameMax
import Verif.Props.SameMax
import Verif.Props.RunUnits
import Verif.Props.Origin
import Verif.Lemmas.CyclesNonzero
import Verif.Model.FromLabeler
import Verif.Lemmas.FromLabeler
import Verif.Lemmas.LabelerRun
import Verif.Props.FromLabeler
import Verif.Model.GraphDict
import Verif.Props.GraphDict
import Verif.Props.Supercell
import Verif.Props.SupercellAtoms
import Verif.Props.Symmetry
import Verif.Props.SymmetryWeight
import Verif.Props.OriginWeight
import Verif.Model.SurfaceRuns
import Verif.Props.SurfaceRuns
import Verif.Model.FeatureNearest
import Verif.Props.FeatureNearest
import Verif.Model.VolumeFiles
import Verif.Props.VolumeFiles
import Verif.Props.SupercellWeight
import Verif.Props.WeightFlux
import Verif.Model.ElectrideDims
import Verif.Props.ElectrideDims
import Verif.Model.BaderRunNW
import Verif.Props.BaderRunNW
import Verif.Props.OriginNeargrid
import Verif.Props.SupercellNeargrid
import Verif.Props.SymmetryNeargrid
import Verif.Props.NeargridWeightFlow
import Verif.Props.OriginNW
import Verif.Props.SymmetryNW
import Verif.Props.RunUnitsNW
import Verif.Props.SupercellNW
