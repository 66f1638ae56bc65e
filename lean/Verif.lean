import Verif.Model.Base
import Verif.Model.Rng
import Verif.Model.Geom
import Verif.Model.Offset
import Verif.Props.C01_RngSplit
import Verif.Props.C02_Contiguous
import Verif.Lemmas.Coords
import Verif.Props.C03_MaxOffset
import Verif.Model.Node
import Verif.Model.Decompose
import Verif.Model.Hdb
import Verif.Lemmas.Box
import Verif.Spec.Hdb
import Verif.Lemmas.HdbInsert
import Verif.Lemmas.HdbBuild
import Verif.Lemmas.HdbSearch
import Verif.Lemmas.HdbRemove
import Verif.Lemmas.HdbKnn
import Verif.Spec.Piece
import Verif.Lemmas.Decompose
import Verif.Props.C04_Decompose
import Verif.Props.C07_Tolerance
import Verif.Props.C07_Selected
import Verif.Props.C08_Simple
import Verif.Model.Yields
import Verif.Model.Select
import Verif.Lemmas.Select
import Verif.Model.HdbHeur
import Verif.Props.C22_Select
import Verif.Spec.History
import Verif.Props.C16_Index
import Verif.Model.Relate
import Verif.Model.SelfInter
import Verif.Model.ConstDP
import Verif.Lemmas.Homotopy
import Verif.Props.C26_Relate
import Verif.Lemmas.HdbYields
import Verif.Props.C32_Neighbours
import Verif.Spec.Cover
import Verif.Lemmas.Cover
import Verif.Lemmas.SplitMerge
import Verif.Lemmas.Deform
import Verif.Lemmas.DeformLoop
import Verif.Lemmas.SplitSelf
import Verif.Lemmas.Merge
import Verif.Lemmas.MergePass
import Verif.Lemmas.Simplify
import Verif.Lemmas.Lnr
import Verif.Props.C23_Lnr
import Verif.Props.C25_NonPlanar
import Verif.Lemmas.InterBounds
import Verif.Lemmas.Mono
import Verif.Lemmas.Reach
import Verif.Props.C09_Simplify
import Verif.Demo.Plane
import Verif.Demo.Env
import Verif.Demo.Axis
import Verif.Props.C31_Limits
import Verif.Props.C34_Merge
import Verif.Props.C56_Conflicts
import Verif.Lemmas.FeatureClass
import Verif.Props.C13_FeatureClass
import Verif.Props.C11_Sed
import Verif.Lemmas.Frame
import Verif.Model.Conc
import Verif.Props.C36_Conc
import Verif.Props.C37_Search
import Verif.Model.Text
import Verif.Lemmas.Text
import Verif.Props.C40_Text
import Verif.Model.Io
import Verif.Model.Cfg
import Verif.Props.C41_Output
import Verif.Props.C46_Cli
import Verif.Model.Queue
import Verif.Props.C45_Queue
import Verif.Model.PieceMem
import Verif.Model.Pipeline
import Verif.Model.Constraints
import Verif.Props.C47_Pipeline
import Verif.Demo.Program
import Verif.Model.Window
import Verif.Lemmas.Window
import Verif.Lemmas.SelectMono
import Verif.Props.C22_Window
import Verif.Props.C58_Groups
import Verif.Model.MergeSize
import Verif.Props.C50_BySize
import Verif.Demo.BySize
import Verif.Props.C62_Constraints
import Verif.Lemmas.Runs
import Verif.Lemmas.RunsSplit
import Verif.Lemmas.RunsMerge
import Verif.Lemmas.RunsFC
import Verif.Props.C55_Determinism
import Verif.Demo.Tolerance
import Verif.Props.C18_Tolerance
import Verif.Lemmas.Wanted
import Verif.Lemmas.Sep
import Verif.Props.C33_Crossings
import Verif.Spec.Recursive
import Verif.Props.C63_Recursive
import Verif.Props.C66_Monotone
import Verif.Props.C67_Sidedness
import Verif.Props.C68_Limit
import Verif.Model.Pointers
import Verif.Lemmas.Pointers
import Verif.Lemmas.PointersMerge
import Verif.Props.C69_Pointers
import Verif.Props.C70_SedDistance
import Verif.Props.C71_Squared
import Verif.Model.HdbMem
import Verif.Spec.HdbMem
import Verif.Lemmas.HdbMem
import Verif.Lemmas.HdbMemInsert
import Verif.Lemmas.HdbMemLoad
import Verif.Lemmas.HdbMemRemove
import Verif.Lemmas.HdbMemRead
import Verif.Props.C72_IndexMemory
import Verif.Spec.Planar
import Verif.Lemmas.Points
import Verif.Lemmas.PlanarPath
import Verif.Lemmas.PieceMem
import Verif.Lemmas.PlanarExact
import Verif.Lemmas.PlanarLine
import Verif.Lemmas.PlanarPieces
import Verif.Lemmas.PlanarNear
import Verif.Lemmas.PlanarParity
import Verif.Demo.Exact
import Verif.Props.C73_Deformation
import Verif.Props.C76_Crossings
import Verif.Props.C77_NoCrossing
import Verif.Lemmas.SepFC
import Verif.Props.C78_ClassCrossing
import Verif.Props.C78_Plane
import Verif.Spec.Trace
import Verif.Spec.Motion
import Verif.Spec.Frechet
import Verif.Lemmas.Trace
import Verif.Lemmas.Motion
import Verif.Lemmas.Frechet
import Verif.Props.C79_Hausdorff
import Verif.Props.C80_Motion
import Verif.Props.C81_Frechet
import Verif.Props.C82_Degenerate
import Verif.Model.Toml
import Verif.Props.C83_Files
import Verif.Model.IdxMem
import Verif.Props.C85_IndexArrays
import Verif.Props.C86_Constrained
import Verif.Props.C87_ConstrainedMotion
import Verif.Lemmas.Rounding
import Verif.Props.C88_Rounding
import Verif.Props.C89_ScoreError
import Verif.Props.C90_PieceArrays
import Verif.Props.C91_ChooseChild
import Verif.Props.C92_SplitIndex
import Verif.Props.C93_SplitAxis
import Verif.Props.C94_Program
import Verif.Demo.RealProgram
import Verif.Props.C97_Race
import Verif.Props.C98_Ends
import Verif.Props.C99_ClassRuns
import Verif.Demo.Ends
import Verif.Lemmas.Rename
import Verif.Lemmas.RenameRun
import Verif.Lemmas.RenameHeur
import Verif.Props.C100_SameFile
import Verif.Lemmas.Draws
import Verif.Lemmas.Effort
import Verif.Spec.Effort
import Verif.Props.C101_Effort
import Verif.Lemmas.Tried
import Verif.Spec.Refused
import Verif.Props.C102_Leftover
import Verif.Spec.Refine
import Verif.Lemmas.Refine
import Verif.Lemmas.RefineSplit
import Verif.Props.C103_Refine
import Verif.Props.C104_MoreConstraints
import Verif.Props.C105_ClassAlone
import Verif.Props.C106_Thresholds
import Verif.Props.C107_FullSpec
import Verif.Props.C108_Similar
import Verif.Lemmas.Mirror
import Verif.Props.C109_Reversal
import Verif.Props.C110_Again
import Verif.Demo.SameFile
import Verif.Props.C111_Reach
import Verif.Props.C112_Rough
import Verif.Props.C113_Blurred
import Verif.Props.C114_BoxPolygon
import Verif.Props.C115_RoundedProgram
import Verif.Props.C116_BluntHulls
import Verif.Props.C117_Meetings
import Verif.Props.C118_Displaced
import Verif.Props.C119_Config
import Verif.Spec.Pull
import Verif.Lemmas.Pull
import Verif.Props.C120_Procedure
import Verif.Props.C121_Symmetry
import Verif.Props.C122_Margins
import Verif.Props.C123_Motions
import Verif.Props.C124_Clocks
import Verif.Props.C125_RoundedMotions
import Verif.Props.C126_RoundedCrossings
import Verif.Props.C127_Shaken
import Verif.Props.C128_ShakenConstraints
import Verif.Props.C29_Piece
import Verif.Props.C129_ShakenTimes
import Verif.Props.C130_Measured
import Verif.Props.C131_Settled
import Verif.Props.C132_Unmerged
import Verif.Demo.Unmerged
