import Verif.Lemmas.Affine
import Verif.Lemmas.AutoAll
import Verif.Lemmas.AutoCut
import Verif.Lemmas.AutoEnd
import Verif.Lemmas.AutoEven
import Verif.Lemmas.AutoFind
import Verif.Lemmas.AutoInv
import Verif.Lemmas.AutoMoves
import Verif.Lemmas.AutoProps
import Verif.Lemmas.AutoStep
import Verif.Lemmas.AutoTypes
import Verif.Lemmas.AutoUnpad
import Verif.Lemmas.Band
import Verif.Lemmas.Cert
import Verif.Lemmas.CoeffBounds
import Verif.Lemmas.Cone
import Verif.Lemmas.CstEdit
import Verif.Lemmas.Ddg
import Verif.Lemmas.DdgMore
import Verif.Lemmas.DepDims
import Verif.Lemmas.Dfp
import Verif.Lemmas.DfpCluster
import Verif.Lemmas.DfpClusterFull
import Verif.Lemmas.DfpClusterLoops
import Verif.Lemmas.DfpClusterRun
import Verif.Lemmas.DfpColour
import Verif.Lemmas.DfpEnd
import Verif.Lemmas.DfpOut
import Verif.Lemmas.DfpScale
import Verif.Lemmas.Diamond
import Verif.Lemmas.DiamondCone
import Verif.Lemmas.DiamondOne
import Verif.Lemmas.DiamondStage
import Verif.Lemmas.DiamondTile
import Verif.Lemmas.Dims
import Verif.Lemmas.Edit
import Verif.Lemmas.Elim
import Verif.Lemmas.Extent
import Verif.Lemmas.Farkas
import Verif.Lemmas.FarkasModel
import Verif.Lemmas.Fcg
import Verif.Lemmas.FcgBuild
import Verif.Lemmas.FcgBuild2
import Verif.Lemmas.FcgBuild3
import Verif.Lemmas.FcgCluster
import Verif.Lemmas.FcgCluster2
import Verif.Lemmas.FcgCluster3
import Verif.Lemmas.FcgCluster4
import Verif.Lemmas.FcgUpdate
import Verif.Lemmas.FlowNames
import Verif.Lemmas.Footprint
import Verif.Lemmas.Framework
import Verif.Lemmas.FuseBands
import Verif.Lemmas.Fusion
import Verif.Lemmas.FusionFiles
import Verif.Lemmas.Gurobi
import Verif.Lemmas.InfoCheck
import Verif.Lemmas.Innermost
import Verif.Lemmas.IntraStep
import Verif.Lemmas.IntraTile
import Verif.Lemmas.IslLib
import Verif.Lemmas.Iss
import Verif.Lemmas.IssCut
import Verif.Lemmas.IssDeps
import Verif.Lemmas.Jam
import Verif.Lemmas.Legality
import Verif.Lemmas.Lex
import Verif.Lemmas.LexScale
import Verif.Lemmas.Lexmin
import Verif.Lemmas.LinInd
import Verif.Lemmas.LoopOrder
import Verif.Lemmas.LpColour
import Verif.Lemmas.LpMain
import Verif.Lemmas.LpObj
import Verif.Lemmas.LpOpt
import Verif.Lemmas.LpOuter
import Verif.Lemmas.LpScale
import Verif.Lemmas.Mark
import Verif.Lemmas.Mask
import Verif.Lemmas.MatSum
import Verif.Lemmas.Matrix
import Verif.Lemmas.Names
import Verif.Lemmas.OneToOne
import Verif.Lemmas.OneToOneRun
import Verif.Lemmas.Origs
import Verif.Lemmas.Osl
import Verif.Lemmas.OslExtract
import Verif.Lemmas.OslFlow
import Verif.Lemmas.OslMap
import Verif.Lemmas.Pad
import Verif.Lemmas.PadProg
import Verif.Lemmas.PerCc
import Verif.Lemmas.PerCcAuto
import Verif.Lemmas.PerCcFind
import Verif.Lemmas.PerCcSum
import Verif.Lemmas.Permute
import Verif.Lemmas.Pet
import Verif.Lemmas.PetExtract
import Verif.Lemmas.Pipeline
import Verif.Lemmas.PlutoTile
import Verif.Lemmas.Polyloop
import Verif.Lemmas.PostNoWave
import Verif.Lemmas.Precut
import Verif.Lemmas.PrecutRead
import Verif.Lemmas.PrecutRun
import Verif.Lemmas.Print
import Verif.Lemmas.Print2
import Verif.Lemmas.Print3
import Verif.Lemmas.PrintCst
import Verif.Lemmas.PrintCst2
import Verif.Lemmas.Rank
import Verif.Lemmas.Recompute
import Verif.Lemmas.Remap
import Verif.Lemmas.RemapElim
import Verif.Lemmas.Restore
import Verif.Lemmas.Reuse
import Verif.Lemmas.ReuseRegs
import Verif.Lemmas.SameRuns
import Verif.Lemmas.SatFold
import Verif.Lemmas.Satisfaction
import Verif.Lemmas.Schedule
import Verif.Lemmas.Semantics
import Verif.Lemmas.Simplify
import Verif.Lemmas.Skew
import Verif.Lemmas.SkewRun
import Verif.Lemmas.StencilForm
import Verif.Lemmas.StencilSys
import Verif.Lemmas.Terminate
import Verif.Lemmas.TerminateCut
import Verif.Lemmas.TerminateRun
import Verif.Lemmas.Tile
import Verif.Lemmas.TileAll
import Verif.Lemmas.TileBand
import Verif.Lemmas.TileBands
import Verif.Lemmas.TileLegal
import Verif.Lemmas.TileNoWave
import Verif.Lemmas.TileSelect
import Verif.Lemmas.TileSizes
import Verif.Lemmas.TiledBand
import Verif.Lemmas.TiledIntra
import Verif.Lemmas.TiledShift
import Verif.Lemmas.Unpad
import Verif.Lemmas.Wavefront
import Verif.Model.Arith
import Verif.Model.Auto
import Verif.Model.Bounds
import Verif.Model.Cmdline
import Verif.Model.Codegen
import Verif.Model.Constraints
import Verif.Model.CstList
import Verif.Model.Ddg
import Verif.Model.Dfp
import Verif.Model.DfpCluster
import Verif.Model.Diamond
import Verif.Model.DiamondTile
import Verif.Model.Extent
import Verif.Model.Fcg
import Verif.Model.FcgBuild
import Verif.Model.FcgCluster
import Verif.Model.Flow
import Verif.Model.Footprint
import Verif.Model.Framework
import Verif.Model.Glpk
import Verif.Model.Gurobi
import Verif.Model.IslAff
import Verif.Model.IslConv
import Verif.Model.IslLib
import Verif.Model.IslLibAccs
import Verif.Model.Iss
import Verif.Model.LpColour
import Verif.Model.LpDfp
import Verif.Model.LpScale
import Verif.Model.Mark
import Verif.Model.Matrix
import Verif.Model.Names
import Verif.Model.NamesDep
import Verif.Model.Osl
import Verif.Model.PerCc
import Verif.Model.Pet
import Verif.Model.Pipeline
import Verif.Model.Polylib
import Verif.Model.Polyloop
import Verif.Model.Precut
import Verif.Model.Print
import Verif.Model.PrintCst
import Verif.Model.Prog
import Verif.Model.ProgEdit
import Verif.Model.Remap
import Verif.Model.RemapLib
import Verif.Model.Reuse
import Verif.Model.Satisfaction
import Verif.Model.Search
import Verif.Model.Skew
import Verif.Model.Stencil
import Verif.Model.StmtEdit
import Verif.Model.Tile
import Verif.Model.TileSizes
import Verif.Model.Transforms
import Verif.Model.Words
import Verif.Props.Arith
import Verif.Props.Auto
import Verif.Props.Band
import Verif.Props.Bounds
import Verif.Props.Cmdline
import Verif.Props.CmdlineFlags
import Verif.Props.Codegen
import Verif.Props.CoeffBounds
import Verif.Props.Colour
import Verif.Props.CstEdit
import Verif.Props.CstList
import Verif.Props.Ddg
import Verif.Props.Dfp
import Verif.Props.DfpCluster
import Verif.Props.DfpClusterLoops
import Verif.Props.DfpClusterStop
import Verif.Props.DfpOneToOne
import Verif.Props.DfpRebuild
import Verif.Props.Diamond
import Verif.Props.DiamondTile
import Verif.Props.Elim
import Verif.Props.Extent
import Verif.Props.ExtentBox
import Verif.Props.ExtentExamples
import Verif.Props.Farkas
import Verif.Props.FcgBuild
import Verif.Props.FcgCluster
import Verif.Props.FcgClusterBad
import Verif.Props.FcgViolated
import Verif.Props.Flow
import Verif.Props.FlowSchedule
import Verif.Props.Footprint
import Verif.Props.FootprintBand
import Verif.Props.Fusion
import Verif.Props.FusionFiles
import Verif.Props.Glpk
import Verif.Props.Gurobi
import Verif.Props.InnerPar
import Verif.Props.InnerParDiamond
import Verif.Props.InnerParLib
import Verif.Props.InnerParTile
import Verif.Props.InnerParTool
import Verif.Props.IslAff
import Verif.Props.IslAffDivs
import Verif.Props.IslAffExamples
import Verif.Props.IslConv
import Verif.Props.IslLib
import Verif.Props.IslLibAccs
import Verif.Props.Iss
import Verif.Props.IssCut
import Verif.Props.Legality
import Verif.Props.LibRun
import Verif.Props.LinInd
import Verif.Props.LpColour
import Verif.Props.LpDfp
import Verif.Props.LpScale
import Verif.Props.Mark
import Verif.Props.Matrix
import Verif.Props.Names
import Verif.Props.NamesCopy
import Verif.Props.NamesDep
import Verif.Props.NamesEx
import Verif.Props.NewDomain
import Verif.Props.OneToOne
import Verif.Props.Osl
import Verif.Props.OslExamples
import Verif.Props.OslMore
import Verif.Props.ParallelRun
import Verif.Props.PerCc
import Verif.Props.PerCcExamples
import Verif.Props.Pet
import Verif.Props.PetExamples
import Verif.Props.Pip
import Verif.Props.Pipeline
import Verif.Props.Polylib
import Verif.Props.PolylibEx
import Verif.Props.Polyloop
import Verif.Props.Precut
import Verif.Props.PrecutExamples
import Verif.Props.PrecutTypes
import Verif.Props.Print
import Verif.Props.PrintCst
import Verif.Props.ProgEdit
import Verif.Props.ProgEditExamples
import Verif.Props.Rank
import Verif.Props.Remap
import Verif.Props.Reuse
import Verif.Props.ReuseExamples
import Verif.Props.ReuseMax
import Verif.Props.Satisfaction
import Verif.Props.Schedule
import Verif.Props.ScheduleDiamond
import Verif.Props.Search
import Verif.Props.Semantics
import Verif.Props.Skew
import Verif.Props.SkewDims
import Verif.Props.SkewOnce
import Verif.Props.SkewRows
import Verif.Props.Stencil
import Verif.Props.StencilDef
import Verif.Props.StencilExamples
import Verif.Props.StencilFace
import Verif.Props.StmtEdit
import Verif.Props.StmtOps
import Verif.Props.Terminate
import Verif.Props.Tile
import Verif.Props.TileBands
import Verif.Props.TileFind
import Verif.Props.TileFind2
import Verif.Props.TileLoop
import Verif.Props.TileNoWave
import Verif.Props.TileSizes
import Verif.Props.TileSizesExamples
import Verif.Props.Wavefront
import Verif.Props.Words
import Verif.Spec.Affine
import Verif.Spec.Auto
import Verif.Spec.Bounds
import Verif.Spec.Cmdline
import Verif.Spec.CmdlineFlags
import Verif.Spec.Codegen
import Verif.Spec.Colour
import Verif.Spec.Dfp
import Verif.Spec.DfpCluster
import Verif.Spec.Diamond
import Verif.Spec.DiamondTile
import Verif.Spec.Edges
import Verif.Spec.Extent
import Verif.Spec.FcgBuild
import Verif.Spec.FcgCluster
import Verif.Spec.Flow
import Verif.Spec.Footprint
import Verif.Spec.Fusion
import Verif.Spec.Graph
import Verif.Spec.Gurobi
import Verif.Spec.IslAff
import Verif.Spec.IslConv
import Verif.Spec.IslLib
import Verif.Spec.IslLibAccs
import Verif.Spec.Iss
import Verif.Spec.LpColour
import Verif.Spec.LpScale
import Verif.Spec.Mark
import Verif.Spec.Names
import Verif.Spec.OneToOne
import Verif.Spec.Osl
import Verif.Spec.ParallelRun
import Verif.Spec.PerCc
import Verif.Spec.Pet
import Verif.Spec.Pipeline
import Verif.Spec.Polylib
import Verif.Spec.Polyloop
import Verif.Spec.Precut
import Verif.Spec.Print
import Verif.Spec.PrintCst
import Verif.Spec.Prog
import Verif.Spec.ProgEdit
import Verif.Spec.Rank
import Verif.Spec.Remap
import Verif.Spec.RemapLib
import Verif.Spec.Reuse
import Verif.Spec.Schedule
import Verif.Spec.Search
import Verif.Spec.Semantics
import Verif.Spec.Skew
import Verif.Spec.SkewDims
import Verif.Spec.Stencil
import Verif.Spec.Terminate
import Verif.Spec.Tile
import Verif.Spec.TileSizes
