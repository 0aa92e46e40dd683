import Verif.Conformance.Categorical
import Verif.Conformance.Code
import Verif.Conformance.Constraint
import Verif.Conformance.Contrasts
import Verif.Conformance.Formula
import Verif.Conformance.HighLevel
import Verif.Conformance.Print
import Verif.Conformance.Small
import Verif.Conformance.State
import Verif.Lemmas.Absorb
import Verif.Lemmas.AbsorbRank
import Verif.Lemmas.Accept
import Verif.Lemmas.Alone
import Verif.Lemmas.BSpline
import Verif.Lemmas.BSplineSpace
import Verif.Lemmas.Blanks
import Verif.Lemmas.BsKnots
import Verif.Lemmas.BuildMatrices
import Verif.Lemmas.BuildOutcome
import Verif.Lemmas.BuildTop
import Verif.Lemmas.Builders
import Verif.Lemmas.BuildersOutcome
import Verif.Lemmas.Categorical
import Verif.Lemmas.ChunkedBuild
import Verif.Lemmas.ChunkedDesign
import Verif.Lemmas.ColumnNames
import Verif.Lemmas.Columns
import Verif.Lemmas.CompleteCases
import Verif.Lemmas.Constraint
import Verif.Lemmas.ConstraintPosition
import Verif.Lemmas.ConstraintSigns
import Verif.Lemmas.ConstraintTokens
import Verif.Lemmas.ConstraintWays
import Verif.Lemmas.Contrasts
import Verif.Lemmas.CubicCyclic
import Verif.Lemmas.CubicSmooth
import Verif.Lemmas.CubicSpline
import Verif.Lemmas.Desc
import Verif.Lemmas.DesignInfo
import Verif.Lemmas.Environment
import Verif.Lemmas.ErrorPosition
import Verif.Lemmas.EvalFactor
import Verif.Lemmas.EvalPosition
import Verif.Lemmas.Extend
import Verif.Lemmas.FactorMemorize
import Verif.Lemmas.FactorStates
import Verif.Lemmas.Fit
import Verif.Lemmas.HighLevel
import Verif.Lemmas.Infix
import Verif.Lemmas.MakeOutcome
import Verif.Lemmas.Meaning
import Verif.Lemmas.Names
import Verif.Lemmas.OrderedDict
import Verif.Lemmas.Outcome
import Verif.Lemmas.OwnTerms
import Verif.Lemmas.Passes
import Verif.Lemmas.PolyNames
import Verif.Lemmas.Positions
import Verif.Lemmas.Print
import Verif.Lemmas.Program
import Verif.Lemmas.Rank
import Verif.Lemmas.RankDesign
import Verif.Lemmas.Redundancy
import Verif.Lemmas.RedundancyTerms
import Verif.Lemmas.Rename
import Verif.Lemmas.RenameBuild
import Verif.Lemmas.RenameBuilders
import Verif.Lemmas.RenameDesign
import Verif.Lemmas.Reorder
import Verif.Lemmas.ReorderBuild
import Verif.Lemmas.Setup
import Verif.Lemmas.Spelling
import Verif.Lemmas.Splev
import Verif.Lemmas.SplineKnots
import Verif.Lemmas.SplineSpace
import Verif.Lemmas.SplineTransform
import Verif.Lemmas.Subset
import Verif.Lemmas.TensorSpace
import Verif.Lemmas.Tokens
import Verif.Lemmas.UserUtil
import Verif.Lemmas.Util
import Verif.Model.AstNames
import Verif.Model.BuildMatrices
import Verif.Model.Builders
import Verif.Model.Builtins
import Verif.Model.Categorical
import Verif.Model.Columns
import Verif.Model.Constraint
import Verif.Model.ConstraintPosition
import Verif.Model.Contrasts
import Verif.Model.CubicSpline
import Verif.Model.Desc
import Verif.Model.Describe
import Verif.Model.DesignConstraint
import Verif.Model.DesignInfo
import Verif.Model.DesignTerms
import Verif.Model.Environment
import Verif.Model.Equality
import Verif.Model.Err
import Verif.Model.ErrorPosition
import Verif.Model.EvalFactor
import Verif.Model.EvalPosition
import Verif.Model.FactorMemorize
import Verif.Model.FormulaOps
import Verif.Model.HighLevel
import Verif.Model.Infix
import Verif.Model.LookupFactor
import Verif.Model.Memorize
import Verif.Model.Message
import Verif.Model.Missing
import Verif.Model.NAOptions
import Verif.Model.OrderedDict
import Verif.Model.Print
import Verif.Model.Program
import Verif.Model.Pushback
import Verif.Model.PySlice
import Verif.Model.Python
import Verif.Model.Redundancy
import Verif.Model.Setup
import Verif.Model.SortAnything
import Verif.Model.Splev
import Verif.Model.SplineTransform
import Verif.Model.State
import Verif.Model.Tensor
import Verif.Model.Tokens
import Verif.Model.UserUtil
import Verif.Model.Util
import Verif.Props.Alone
import Verif.Props.AstNames
import Verif.Props.BSpline
import Verif.Props.Blanks
import Verif.Props.Builders
import Verif.Props.Builtins
import Verif.Props.Categorical
import Verif.Props.CellContrasts
import Verif.Props.CellMeans
import Verif.Props.CellText
import Verif.Props.ChunkedDesign
import Verif.Props.ChunkedText
import Verif.Props.Chunks
import Verif.Props.CoefText
import Verif.Props.ColumnCount
import Verif.Props.Columns
import Verif.Props.CompleteCases
import Verif.Props.CompleteText
import Verif.Props.Constraint
import Verif.Props.ConstraintPosition
import Verif.Props.ConstraintWays
import Verif.Props.Contrasts
import Verif.Props.Crossed
import Verif.Props.CubicSpline
import Verif.Props.Desc
import Verif.Props.Describe
import Verif.Props.DesignInfo
import Verif.Props.Environment
import Verif.Props.Equality
import Verif.Props.ErrorPosition
import Verif.Props.EvalFactor
import Verif.Props.EvalPosition
import Verif.Props.Extend
import Verif.Props.Fit
import Verif.Props.FitTransforms
import Verif.Props.FormulaLaws
import Verif.Props.FormulaPowers
import Verif.Props.HighLevel
import Verif.Props.Hypothesis
import Verif.Props.Infix
import Verif.Props.Line
import Verif.Props.LookupFactor
import Verif.Props.Meaning
import Verif.Props.Memorize
import Verif.Props.Message
import Verif.Props.Missing
import Verif.Props.ModelSpace
import Verif.Props.NAOptions
import Verif.Props.Names
import Verif.Props.NamesBuiltin
import Verif.Props.OrderedDict
import Verif.Props.Outcome
import Verif.Props.OwnTerms
import Verif.Props.Parallel
import Verif.Props.ParseFormula
import Verif.Props.PieceOrder
import Verif.Props.Poly
import Verif.Props.Power
import Verif.Props.Predict
import Verif.Props.Print
import Verif.Props.Program
import Verif.Props.Pushback
import Verif.Props.PySlice
import Verif.Props.Rank
import Verif.Props.RankBuiltin
import Verif.Props.Recode
import Verif.Props.RecodePredict
import Verif.Props.Redundancy
import Verif.Props.Rename
import Verif.Props.Reorder
import Verif.Props.ReorderText
import Verif.Props.Sequential
import Verif.Props.SortAnything
import Verif.Props.Spelling
import Verif.Props.SplineConstraints
import Verif.Props.SplineTransform
import Verif.Props.State
import Verif.Props.Subset
import Verif.Props.TeClass
import Verif.Props.Tensor
import Verif.Props.TensorSpace
import Verif.Props.TermOrder
import Verif.Props.Tokens
import Verif.Props.Transforms
import Verif.Props.UserUtil
import Verif.Props.Util
import Verif.Spec.Alone
import Verif.Spec.AstNames
import Verif.Spec.BSpline
import Verif.Spec.Blanks
import Verif.Spec.Build
import Verif.Spec.Calls
import Verif.Spec.CellMeans
import Verif.Spec.ChunkedDesign
import Verif.Spec.ColumnCount
import Verif.Spec.CompleteCases
import Verif.Spec.Constraint
import Verif.Spec.ConstraintPosition
import Verif.Spec.ConstraintTokens
import Verif.Spec.ConstraintWays
import Verif.Spec.Contrasts
import Verif.Spec.Crossed
import Verif.Spec.Desc
import Verif.Spec.Environment
import Verif.Spec.Equality
import Verif.Spec.ErrorPosition
import Verif.Spec.EvalPosition
import Verif.Spec.Extend
import Verif.Spec.Fit
import Verif.Spec.Grammar
import Verif.Spec.HighLevel
import Verif.Spec.Hypothesis
import Verif.Spec.Levels
import Verif.Spec.Line
import Verif.Spec.Meaning
import Verif.Spec.Message
import Verif.Spec.Names
import Verif.Spec.OrderedDict
import Verif.Spec.Outcome
import Verif.Spec.OwnTerms
import Verif.Spec.Parallel
import Verif.Spec.PieceOrder
import Verif.Spec.Predict
import Verif.Spec.Print
import Verif.Spec.Program
import Verif.Spec.Rank
import Verif.Spec.Recode
import Verif.Spec.Redundancy
import Verif.Spec.Rename
import Verif.Spec.Reorder
import Verif.Spec.Sample
import Verif.Spec.SortAnything
import Verif.Spec.Spelling
import Verif.Spec.Spline
import Verif.Spec.SplineTransform
import Verif.Spec.TensorSpace
import Verif.Spec.TermOrder
import Verif.Spec.Tokens
import Verif.Spec.Transforms
import Verif.Spec.UserUtil
