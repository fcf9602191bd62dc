import Verif.Values.Equality
import Verif.Values.EqualityProps
import Verif.Values.Diff
import Verif.Values.DiffProps
import Verif.Values.DiffRaisesProps
import Verif.Values.DiffPlaceProps
import Verif.Values.DiffSwapProps
import Verif.Values.CopyProps
import Verif.Values.SerializeProps
import Verif.Values.PathsProps
import Verif.Values.PathsIndexProps
import Verif.Values.PathLaws
import Verif.Values.OrderProps
import Verif.Values.PointersProps
import Verif.Checks.Props
import Verif.Checks.BsonProps
import Verif.Filters.Props
import Verif.Filters.LawsProps
import Verif.Workflow.Props
import Verif.Workflow.NextProps
import Verif.Workflow.StepsProps
import Verif.Workflow.BlocksProps
import Verif.Misc.NumbersProps
import Verif.Misc.TextProps
import Verif.Misc.BreakdownProps
import Verif.Data.ParetoProps
import Verif.Data.ParetoLaws
import Verif.Data.SortProps
import Verif.Data.PartsLaws
import Verif.Data.SortLaws
import Verif.Data.MetricsProps
import Verif.Data.SamplingProps
import Verif.Data.ClusterProps
import Verif.Data.PrintProps
import Verif.Data.PlotProps
import Verif.Types.MatchProps
import Verif.Types.ChainProps
import Verif.Types.VariablesProps
import Verif.Types.ArgsProps
import Verif.Types.AnnotProps
import Verif.Workflow.PersistProps
import Verif.Workflow.MakeProps
import Verif.Workflow.OldDict
import Verif.Workflow.OldDictProps
import Verif.Workflow.OldNamesProps
import Verif.Workflow.LineageProps
import Verif.Workflow.SessionProps
import Verif.Workflow.PersistCopyProps
import Verif.Workflow.EqualProps
import Verif.Values.EmitProps
import Verif.Values.EmitFail
import Verif.Values.WrittenProps
import Verif.Workflow.SavedEnd
import Verif.Workflow.DisplayEnd
import Verif.Workflow.Offers
import Verif.Workflow.OffersProps
import Verif.Types.ArgumentsProps
import Verif.Workflow.ArgumentsProps
import Verif.Workflow.FormProps
import Verif.Workflow.ScriptProps
import Verif.Workflow.CatalogueProps
import Verif.Files.Excel
import Verif.Files.ExcelBreak
import Verif.Files.ExcelPath
import Verif.Files.ExcelRound
import Verif.Files.ExcelFlat
import Verif.Files.ExcelProps
import Verif.Files.ExcelCatalog
import Verif.Workflow.StateCopy
import Verif.Workflow.StateSim
import Verif.Workflow.StateCopyLemmas
import Verif.Workflow.StateCopyProps
import Verif.Workflow.RunSim
import Verif.Workflow.RunScript
import Verif.Workflow.RunScriptLemmas
import Verif.Workflow.RunScriptProps
import Verif.Workflow.LayoutProps
import Verif.Schemas.Docstring
import Verif.Schemas.DocstringProps
import Verif.Schemas.Model
import Verif.Schemas.FormProps
import Verif.Schemas.ClassProps
import Verif.Schemas.ClassDocProps
import Verif.Schemas.CheckProps
import Verif.Schemas.DefaultProps
import Verif.Schemas.ContentProps
import Verif.Views.Model
import Verif.Views.Lemmas
import Verif.Views.DisplayProps
import Verif.Views.ExportProps
import Verif.Views.Platform
import Verif.Views.PlatformProps
import Verif.Values.File
import Verif.Values.FileLemmas
import Verif.Values.FileProps
import Verif.Misc.Docx
import Verif.Misc.DocxProps
import Verif.Misc.DocxBuildProps
import Verif.Misc.RegionsProps
import Verif.Misc.OptimizeProps
import Verif.Misc.Generation
import Verif.Misc.GenerationLemmas
import Verif.Misc.GenerationProps
import Verif.Misc.Visjs
import Verif.Misc.VisjsProps
import Verif.Values.IsSer
import Verif.Values.IsSerProps
import Verif.Data.Stats
import Verif.Data.StatsProps
import Verif.Data.StatLawsProps
import Verif.Workflow.StepDisplay
import Verif.Workflow.StepDisplayProps
import Verif.Workflow.Callback
import Verif.Workflow.CallbackProps
import Verif.Workflow.AgainProps
import Verif.Workflow.Calls
import Verif.Workflow.CallsProps
import Verif.Data.Frontier
import Verif.Data.FrontierProps
import Verif.Files.Streams
import Verif.Files.StreamsProps
import Verif.Workflow.Interactive
import Verif.Workflow.InteractiveProps
import Verif.Data.Fit
import Verif.Data.FitProps
import Verif.Data.MahalanobisProps
import Verif.Values.PointerStatsProps
import Verif.Data.SamplesProps
import Verif.Schemas.MethodsProps
import Verif.Types.ChecksProps
import Verif.Misc.MarkdownProps
import Verif.Misc.RunMarkdown
import Verif.Misc.RunMarkdownProps
import Verif.Workflow.ThroughProps
import Verif.Types.OldTypingProps
import Verif.Workflow.BlockDocsProps
import Verif.Workflow.LawsProps
import Verif.Workflow.UnfoldProps
import Verif.Workflow.ReplaceProps
import Verif.Workflow.EachProps
import Verif.Values.StableProps
import Verif.Data.FeaturesProps
import Verif.Filters.PrintProps
import Verif.Workflow.PortsProps
import Verif.Workflow.BlockDictProps
import Verif.Data.GeometryProps
import Verif.Values.ContextProps
import Verif.Values.CopyAgainProps
import Verif.Workflow.StepEditProps
import Verif.Misc.DemoProps
import Verif.Misc.BeamsProps
import Verif.Data.ParetoParts
import Verif.Values.GraphElements
import Verif.Values.GraphElementsProps
import Verif.Values.RecType
import Verif.Values.RecTypeProps
import Verif.Values.ClassNamesProps
