import Verif.Axioms
import Verif.Model.Analysis
import Verif.Model.BV
import Verif.Model.Candidates
import Verif.Model.Conditional
import Verif.Model.Derive
import Verif.Model.DomBool
import Verif.Model.DomBvBool
import Verif.Model.DomCad
import Verif.Model.DomExp
import Verif.Model.DomHalide
import Verif.Model.DomMaxMin
import Verif.Model.DomNat
import Verif.Model.DomPos
import Verif.Model.DomRational
import Verif.Model.DomSymbol
import Verif.Model.DomTrig
import Verif.Model.Domain
import Verif.Model.Domains
import Verif.Model.EGraph
import Verif.Model.Extract
import Verif.Model.Filter
import Verif.Model.Generalize
import Verif.Model.IndexMap
import Verif.Model.Inference
import Verif.Model.Interval
import Verif.Model.LogRows
import Verif.Model.Logger
import Verif.Model.Minimize
import Verif.Model.Pattern
import Verif.Model.RecExpr
import Verif.Model.Recipe
import Verif.Model.Recipes
import Verif.Model.Report
import Verif.Model.Rule
import Verif.Model.Scheduler
import Verif.Model.Sexp
import Verif.Model.Smt
import Verif.Model.Term
import Verif.Model.Text
import Verif.Model.Workload
import Verif.Proofs.Analysis
import Verif.Proofs.BV
import Verif.Proofs.BVText
import Verif.Proofs.Basic
import Verif.Proofs.BoolComplete
import Verif.Proofs.BoolLaws
import Verif.Proofs.BoolLevels
import Verif.Proofs.BvBool
import Verif.Proofs.Cad
import Verif.Proofs.CadVal
import Verif.Proofs.Candidates
import Verif.Proofs.Canon
import Verif.Proofs.Chars
import Verif.Proofs.Complete
import Verif.Proofs.Compress
import Verif.Proofs.Conditional
import Verif.Proofs.DecimalText
import Verif.Proofs.DomPoint
import Verif.Proofs.Domain
import Verif.Proofs.EGraph
import Verif.Proofs.EGraphData
import Verif.Proofs.EGraphOps
import Verif.Proofs.Exp
import Verif.Proofs.ExpVal
import Verif.Proofs.Extract
import Verif.Proofs.Folds
import Verif.Proofs.FreeGraph
import Verif.Proofs.Generalize
import Verif.Proofs.Halide
import Verif.Proofs.IndexMap
import Verif.Proofs.Init
import Verif.Proofs.Lifting
import Verif.Proofs.LogRows
import Verif.Proofs.Logger
import Verif.Proofs.Match
import Verif.Proofs.MaxMin
import Verif.Proofs.Minimize
import Verif.Proofs.Plug
import Verif.Proofs.PlugLaws
import Verif.Proofs.Progress
import Verif.Proofs.ProgressBlind
import Verif.Proofs.ProgressBuild
import Verif.Proofs.ProgressData
import Verif.Proofs.ProgressDomains
import Verif.Proofs.ProgressFast
import Verif.Proofs.ProgressRational
import Verif.Proofs.ProgressRun
import Verif.Proofs.ProgressRuns
import Verif.Proofs.ProgressShrink
import Verif.Proofs.RatInterval
import Verif.Proofs.RatText
import Verif.Proofs.Rational
import Verif.Proofs.Reach
import Verif.Proofs.Rebuild
import Verif.Proofs.RecExpr
import Verif.Proofs.Recipe
import Verif.Proofs.RecipeExact
import Verif.Proofs.RecipeRules
import Verif.Proofs.RecipeTerms
import Verif.Proofs.RecipeWorkloads
import Verif.Proofs.Rule
import Verif.Proofs.Ruleset
import Verif.Proofs.SatEnds
import Verif.Proofs.Saturate
import Verif.Proofs.Saturated
import Verif.Proofs.Saturating
import Verif.Proofs.SelfProduct
import Verif.Proofs.Signature
import Verif.Proofs.Size
import Verif.Proofs.Synthesis
import Verif.Proofs.SynthesisDomains
import Verif.Proofs.Tables
import Verif.Proofs.Text
import Verif.Proofs.Total
import Verif.Proofs.Trig
import Verif.Proofs.TrigVal
import Verif.Proofs.Validate
import Verif.Proofs.VectorDomains
import Verif.Proofs.Vectors
import Verif.Props.Analysis
import Verif.Props.BV
import Verif.Props.BoolComplete
import Verif.Props.BoolCompleteExamples
import Verif.Props.BoolLevels
import Verif.Props.BoolLevelsExamples
import Verif.Props.Budget
import Verif.Props.Built
import Verif.Props.BvBool
import Verif.Props.BvCompare
import Verif.Props.BvWide
import Verif.Props.BvWideExamples
import Verif.Props.Cad
import Verif.Props.CadRun
import Verif.Props.Candidates
import Verif.Props.Complete
import Verif.Props.CompleteRuns
import Verif.Props.Compress
import Verif.Props.Conditional
import Verif.Props.ConditionalRun
import Verif.Props.Decides
import Verif.Props.Derive
import Verif.Props.DomBool
import Verif.Props.DomInt
import Verif.Props.Exp
import Verif.Props.ExpRun
import Verif.Props.Extract
import Verif.Props.FastComplete
import Verif.Props.FastProgress
import Verif.Props.FastProgressExamples
import Verif.Props.FastRecipes
import Verif.Props.FastRecipesDomains
import Verif.Props.Generalize
import Verif.Props.Inference
import Verif.Props.Larger
import Verif.Props.LiftComplete
import Verif.Props.Lifting
import Verif.Props.LogRows
import Verif.Props.LogRowsExamples
import Verif.Props.Logger
import Verif.Props.MaxMin
import Verif.Props.MaxMinRun
import Verif.Props.MergeCost
import Verif.Props.Minimize
import Verif.Props.PlugLaws
import Verif.Props.Progress
import Verif.Props.ProgressExamples
import Verif.Props.ProgressHalide
import Verif.Props.ProgressRational
import Verif.Props.RatInterval
import Verif.Props.Rational
import Verif.Props.RationalLiterals
import Verif.Props.Recipe
import Verif.Props.RecipeExact
import Verif.Props.RecipeProgress
import Verif.Props.RecipeProgressExamples
import Verif.Props.RecipeReadable
import Verif.Props.RecipeRules
import Verif.Props.RecipeRuns
import Verif.Props.RecipeTerms
import Verif.Props.RecipeUnion
import Verif.Props.RecipeWorkloads
import Verif.Props.Report
import Verif.Props.Reproducible
import Verif.Props.Rounds
import Verif.Props.RuleSize
import Verif.Props.RuleSizeExamples
import Verif.Props.Ruleset
import Verif.Props.SampleValues
import Verif.Props.Samples
import Verif.Props.SatEnds
import Verif.Props.Saturated
import Verif.Props.Saturating
import Verif.Props.Saturation
import Verif.Props.Symbol
import Verif.Props.Synthesis
import Verif.Props.SynthesisDomains
import Verif.Props.SynthesisRational
import Verif.Props.SynthesisRuns
import Verif.Props.Text
import Verif.Props.Trig
import Verif.Props.TrigRun
import Verif.Props.Vectors
import Verif.Props.Workload
import Verif.Spec.BV
import Verif.Spec.Blind
import Verif.Spec.Built
import Verif.Spec.BvWide
import Verif.Spec.Cad
import Verif.Spec.Candidates
import Verif.Spec.Complete
import Verif.Spec.Conditional
import Verif.Spec.Decides
import Verif.Spec.DomBool
import Verif.Spec.DomInt
import Verif.Spec.DomRational
import Verif.Spec.Domain
import Verif.Spec.EGraph
import Verif.Spec.Exp
import Verif.Spec.Extract
import Verif.Spec.Generalize
import Verif.Spec.Grammar
import Verif.Spec.Larger
import Verif.Spec.Lifting
import Verif.Spec.LogRows
import Verif.Spec.Logger
import Verif.Spec.MaxMin
import Verif.Spec.Minimize
import Verif.Spec.Progress
import Verif.Spec.ProgressRational
import Verif.Spec.RecipeRules
import Verif.Spec.RecipeTerms
import Verif.Spec.Reproducible
import Verif.Spec.Rounds
import Verif.Spec.Ruleset
import Verif.Spec.Sample
import Verif.Spec.SampleEGraph
import Verif.Spec.SatEnds
import Verif.Spec.Saturated
import Verif.Spec.Saturation
import Verif.Spec.Sexp
import Verif.Spec.Size
import Verif.Spec.Smt
import Verif.Spec.Subterm
import Verif.Spec.Symbol
import Verif.Spec.Synthesis
import Verif.Spec.Text
import Verif.Spec.Trig
import Verif.Spec.Vectors
