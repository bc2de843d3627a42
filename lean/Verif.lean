import Verif.Props.Names
import Verif.Props.Promotions
import Verif.Props.Promotions2
import Verif.Props.Collect
import Verif.Props.ModelApi
import Verif.Props.ModelApi2
import Verif.Props.Indexing
import Verif.Props.Concat
import Verif.Props.Indexing2
import Verif.Props.Graph
import Verif.Props.BuildGraph
import Verif.Props.Flatten
import Verif.Props.Connect
import Verif.Props.Implicit
import Verif.Props.ShapeVal
import Verif.Props.CustomOp
import Verif.Props.Params
import Verif.Props.ParamsList
import Verif.Props.Arith
import Verif.Props.ComputeString
import Verif.Props.Axes
import Verif.Props.Einsum
import Verif.Props.StdShapes
import Verif.Props.Define
import Verif.Props.Combine
import Verif.Props.Accepts
import Verif.Props.EndToEnd
import Verif.Props.BSpline
import Verif.Props.Analysis
import Verif.Props.Bracket
import Verif.Props.Compile
import Verif.Props.Cycle
import Verif.Props.Valid
import Verif.Props.Program
import Verif.Props.ValidProgram
import Verif.Props.Solvers
import Verif.Props.Elementwise
import Verif.Props.Rotations
import Verif.Props.ProgramParts
import Verif.Props.ProgramConcat
import Verif.Props.ProgramFull
import Verif.Model.Session
import Verif.Props.Session
import Verif.Model.Library
import Verif.Props.Library
import Verif.Props.LibShapes
import Verif.Props.LibrarySolve
import Verif.Props.OneModel
import Verif.Proofs.ProgramFrame
import Verif.Spec.Inline
import Verif.Proofs.Inline
import Verif.Props.Inline
import Verif.Proofs.Declared
import Verif.Spec.Defaults
import Verif.Proofs.Defaults
import Verif.Props.Defaults
import Verif.Spec.Lookup
import Verif.Props.Lookup
import Verif.Model.ImplicitProgram
import Verif.Spec.ImplicitProgram
import Verif.Props.ImplicitProgram
import Verif.Model.Shared
import Verif.Spec.Shared
import Verif.Proofs.Shared
import Verif.Props.Shared
import Verif.Props.Foreign
import Verif.Props.Reorder
import Verif.Model.Report
import Verif.Spec.Report
import Verif.Proofs.Report
import Verif.Proofs.Report2
import Verif.Proofs.Report3
import Verif.Proofs.Report4
import Verif.Proofs.Report5
import Verif.Props.Report
import Verif.Props.Chain
import Verif.Props.ChainProgram
import Verif.Props.Print
import Verif.Props.Join
import Verif.Props.Modular
import Verif.Props.Refactor
import Verif.Props.Depends
import Verif.Props.Rename
import Verif.Props.Dead
import Verif.Props.DefaultsSame
import Verif.Props.Given
import Verif.Props.Optimise
import Verif.Props.MergedSizes
import Verif.Props.JoinMore
import Verif.Props.InputDeclared
import Verif.Props.Inside
import Verif.Props.History
import Verif.Props.Numbers
import Verif.Props.Embed
import Verif.Props.EmbedComplex
import Verif.Props.Smooth
import Verif.Props.Linear
import Verif.Props.Tangent
import Verif.Props.Positive
import Verif.Props.Units
import Verif.Props.Convex
import Verif.Props.JoinDefaults
import Verif.Props.RefactorDefaults
import Verif.Props.PrintDefaults
import Verif.Props.Apart
import Verif.Props.Exact
import Verif.Props.ExactFull
import Verif.Props.ApartDefaults
import Verif.Props.Restructure
import Verif.Model.FormatNumber
import Verif.Spec.FormatNumber
import Verif.Proofs.FormatNumber
import Verif.Props.FormatNumber
import Verif.Spec.PassArgs
import Verif.Proofs.PassArgs
import Verif.Props.PassArgs
