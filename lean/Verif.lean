import Verif.Props.AltCodes
import Verif.Props.KernelDemo
import Verif.Props.KernelProb
import Verif.Props.KernelGrad
import Verif.Props.KernelUtil
import Verif.Props.Cases
import Verif.Props.Sparse
import Verif.Props.Idce
import Verif.Props.Util
import Verif.Props.Params
import Verif.Props.ParamsOps
import Verif.Props.ParamsBest
import Verif.Props.PMath
import Verif.Props.Linear
import Verif.Props.Watch
import Verif.Props.Graph
import Verif.Props.GraphSlots
import Verif.Props.GraphModel
import Verif.Props.GraphRoot
import Verif.Props.Constraints
import Verif.Props.ConstraintList
import Verif.Props.Penalty
import Verif.Props.Setters
import Verif.Props.Loading
import Verif.Props.Optimize
import Verif.Props.Maximize
import Verif.Props.Covariance
import Verif.Props.Group
import Verif.Props.Latent
import Verif.Props.CompiledMnl
import Verif.Props.CompiledNl
import Verif.Props.Weights
import Verif.Props.Split
import Verif.Props.Align
import Verif.Props.Convert
import Verif.Props.Cascade
import Verif.Props.Doctor
import Verif.Props.Standardize
import Verif.Props.Dataset
import Verif.Props.Request
import Verif.Props.Summary
import Verif.Props.ParamsStats
import Verif.Props.ParamsStats2
import Verif.Props.ParamsStats3
import Verif.Props.Labels
import Verif.Props.Sklearn
import Verif.Props.Persist
import Verif.Props.Nesting
import Verif.Props.Coefs
import Verif.Props.SpecUtil
import Verif.Props.Cdap
import Verif.Props.CdapInteract
import Verif.Props.Selector
import Verif.Props.Slots
import Verif.Props.Link
import Verif.Props.Hessian
import Verif.Props.Runner
import Verif.Props.Omx
import Verif.Props.OmxImport
import Verif.Props.MagicNest
import Verif.Props.Recode
import Verif.Props.StdErr
import Verif.Model.Display
import Verif.Spec.Display
import Verif.Lemmas.Display
import Verif.Props.Display
import Verif.Props.DisplayTable
import Verif.Props.SpecHash
import Verif.Props.Pods
import Verif.Props.PodLoad
import Verif.Props.PodSelect
import Verif.Props.PValue
import Verif.Props.Evaluate
import Verif.Props.ConText
import Verif.Props.Shared
import Verif.Props.RefLL
import Verif.Props.StatTable
import Verif.Props.LatentData
import Verif.Props.Joint
import Verif.Props.Feathers
import Verif.Props.Crack
import Verif.Props.DataSource
import Verif.Props.Scoring
import Verif.Props.Jump
import Verif.Props.AltSpec
import Verif.Props.Choices
import Verif.Props.ChoicesAv
import Verif.Props.Store
import Verif.Props.NewAlts
import Verif.Props.Combine
import Verif.Props.SizeTerms
import Verif.Props.AsimModels
import Verif.Props.DataPrep
import Verif.Props.ArrayStats
import Verif.Props.PodCe
import Verif.Props.Archive
import Verif.Props.RateLimit
import Verif.Props.Series
import Verif.Props.Prelearn
import Verif.Props.MultiIdx
import Verif.Props.Tally
import Verif.Props.TreeParts
import Verif.Props.Terms
import Verif.Props.MergeIn
import Verif.Props.Lookup
import Verif.Props.Dbf
import Verif.Props.Matrices
import Verif.Props.Vault
import Verif.Props.Columnize
import Verif.Props.QueryCases
import Verif.Props.Shares
import Verif.Props.DistFig
import Verif.Props.PodVars
import Verif.Props.SqlRead
import Verif.Props.Kde
import Verif.Props.IdcaStats
import Verif.Props.ServiceData
import Verif.Props.StackPod
import Verif.Props.Naming
import Verif.Props.CrossTab
import Verif.Props.FromIdce
import Verif.Props.PodCopy
import Verif.Props.HistFig
import Verif.Props.CeTable
import Verif.Props.SmartRead
import Verif.Props.OneHotFrame
import Verif.Props.Notify
import Verif.Props.PodExpr
import Verif.Props.Workbook
import Verif.Props.Nested
import Verif.Props.PodCopy2
import Verif.Props.HistFig2
import Verif.Props.OmxRemap
import Verif.Props.CdapData
import Verif.Props.PodExpr2
import Verif.Props.AltNames
import Verif.Props.Dissolve
import Verif.Props.HtmlTable
import Verif.Props.TimeText
import Verif.Props.ShowText
import Verif.Props.CloseMatch
import Verif.Props.PreApply
import Verif.Props.Pictures
import Verif.Props.Watched
import Verif.Props.StrDict
import Verif.Props.LogSetup
import Verif.Props.TempCopy
import Verif.Props.TestCode
