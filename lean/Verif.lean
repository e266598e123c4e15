import Verif.DataDict.Props
import Verif.Dim.Props
import Verif.HFArray.BinopProps
import Verif.HFArray.BinopOrder
import Verif.HFArray.ReorderProps
import Verif.HFArray.ReduceProps
import Verif.HFArray.IndexProps
import Verif.HFArray.SliceProps
import Verif.HFArray.RepProps
import Verif.HFArray.FullComplexProps
import Verif.Utils.Props
import Verif.Utils.LexProps
import Verif.Logger.Props
import Verif.Config.Props
import Verif.Config.Load
import Verif.Config.LoadProps
import Verif.Config.LoadErrors
import Verif.Config.Write
import Verif.Config.WriteProps
import Verif.Config.Clock
import Verif.Config.ClockProps
import Verif.Config.ScalarProps
import Verif.Config.ScalarExamples
import Verif.Hdf5.Props
import Verif.Hdf5.SaveExamples
import Verif.Units.Props
import Verif.Units.FormatProps
import Verif.Readers.StreamProps
import Verif.DataBlock.Examples
import Verif.DataBlock.ReadDimProps
import Verif.DataBlock.ElemProps
import Verif.Readers.DispatchProps
import Verif.Readers.LinesProps
import Verif.Cache.Props
import Verif.Readers.AssembleProps
import Verif.DataBlock.SplitProps
import Verif.DataBlock.ConvertProps
import Verif.Readers.NormalizeProps
import Verif.Networks.Convert
import Verif.Networks.ConvertProps
import Verif.Networks.Cascade
import Verif.Networks.CascadeProps
import Verif.Networks.Objects
import Verif.Networks.ObjectsProps
import Verif.Networks.Attr
import Verif.Networks.AttrProps
import Verif.Networks.Noise
import Verif.Networks.NoiseProps
import Verif.Networks.NoiseParProps
import Verif.Networks.Passive
import Verif.Networks.PassiveProps
import Verif.Networks.Stack
import Verif.Networks.StackLemmas
import Verif.Networks.StackProps
import Verif.Networks.StackExamples
import Verif.Networks.ChainExamples
import Verif.Networks.PortsProps
import Verif.Networks.SlicesProps
import Verif.Networks.UnitProps
import Verif.MathFns.Model
import Verif.MathFns.AngleProps
import Verif.MathFns.Smooth
import Verif.MathFns.SmoothProps
import Verif.MathFns.InterpProps
import Verif.MathFns.DelayProps
import Verif.Smith.Model
import Verif.Smith.Props
import Verif.Smith.ArcProps
import Verif.Hyper.Model
import Verif.Hyper.Props
import Verif.Hyper.Block
import Verif.Hyper.BlockSpec
import Verif.Hyper.BlockLemmas
import Verif.Hyper.BlockProps
import Verif.Hyper.BlockErrors
import Verif.Hyper.BlockExamples
import Verif.DataBlock.Rep
import Verif.DataBlock.RepSpec
import Verif.DataBlock.RepProps
import Verif.Hyper.RepBack
import Verif.Hyper.RepExamples
import Verif.Readers.Text
import Verif.Touchstone.Cut
import Verif.Touchstone.CutProps
import Verif.Touchstone.File
import Verif.Touchstone.FileProps
import Verif.Citi.Model
import Verif.Citi.Lemmas
import Verif.Citi.Props
import Verif.Citi.Examples
import Verif.Citi.ReadSpec
import Verif.Citi.ReadLemmas
import Verif.Citi.ReadProps
import Verif.Citi.ReadErrors
import Verif.Mdif.Names
import Verif.Mdif.NamesProps
import Verif.Mdif.MakeProps
import Verif.Mdif.ShortenProps
import Verif.Mdif.PartitionProps
import Verif.Mdif.Read
import Verif.Mdif.GroupProps
import Verif.Mdif.TableProps
import Verif.Mdif.ReadProps
import Verif.Mdif.SettingProps
import Verif.Mdif.Write
import Verif.Mdif.WriteSpec
import Verif.Mdif.WriteLemmas
import Verif.Mdif.WriteTable
import Verif.Mdif.WriteProps
import Verif.Mdif.WriteErrors
import Verif.Mdif.WriteExamples
import Verif.Mdif.Merge
import Verif.Mdif.MergeSpec
import Verif.Mdif.MergeLemmas
import Verif.Mdif.MergeProps
import Verif.Mdif.MergeSaved
import Verif.Mdif.FilesSpec
import Verif.Mdif.FilesProps
import Verif.Mdif.MergeExamples
import Verif.Mdif.Steps
import Verif.Mdif.StepsLemmas
import Verif.Mdif.StepsProps
import Verif.Mdif.StepsExamples
import Verif.DataBlock.FilterSort
import Verif.DataBlock.FilterLemmas
import Verif.DataBlock.FilterBlock
import Verif.DataBlock.FilterProps
import Verif.DataBlock.FilterExamples
import Verif.HFArray.SqueezeProps
import Verif.DataBlock.Squeeze
import Verif.DataBlock.SqueezeProps
import Verif.Merge.Model
import Verif.Merge.Spec
import Verif.Merge.Lemmas
import Verif.Merge.Loop
import Verif.Merge.Index
import Verif.Merge.Core
import Verif.Merge.Props
import Verif.Merge.Examples
import Verif.Merge.GroupsSpec
import Verif.Merge.GroupsLemmas
import Verif.Merge.Groups
import Verif.Merge.GroupsProps
import Verif.Merge.GroupsExamples
import Verif.Merge.Hyper
import Verif.Merge.HyperSpec
import Verif.Merge.HyperProps
import Verif.Merge.HyperExamples
import Verif.DataBlock.Interp
import Verif.DataBlock.InterpProps
import Verif.DataBlock.InterpExamples
import Verif.DataBlock.Report
import Verif.DataBlock.ReportProps
import Verif.DataBlock.ReportExamples
import Verif.Readers.Complex
import Verif.Readers.ComplexLemmas
import Verif.Readers.ComplexProps
import Verif.Readers.ComplexExamples
import Verif.Readers.FixUnit
import Verif.Readers.FixUnitProps
import Verif.Readers.FixUnitExamples
import Verif.Readers.Files
import Verif.Readers.FilesProps
import Verif.Readers.FilesExamples
import Verif.Sp.Comments
import Verif.Sp.Model
import Verif.Sp.Text
import Verif.Sp.Lemmas
import Verif.Sp.CommentProps
import Verif.Sp.Spec
import Verif.Sp.Parse
import Verif.Sp.Props
import Verif.Sp.Examples
import Verif.HFArray.Diag
import Verif.HFArray.DiagLemmas
import Verif.HFArray.DiagProps
import Verif.HFArray.Axis
import Verif.HFArray.AxisProps
import Verif.HFArray.TransposeProps
import Verif.HFArray.MatMul
import Verif.HFArray.MatMulLemmas
import Verif.HFArray.MatMulProps
import Verif.HFArray.LinAlgProps
import Verif.HFArray.LstsqProps
import Verif.HFArray.MaskExamples
import Verif.HFArray.MatMulExamples
import Verif.Sp.Write
import Verif.Sp.WriteSpec
import Verif.Sp.WriteLemmas
import Verif.Sp.WriteProps
import Verif.Sp.WriteExamples
import Verif.Readers.Words
import Verif.Touchstone.ReadProps
import Verif.Smith.InfProps
import Verif.Plot.LabelExamples
import Verif.HFArray.MakeMatrixExamples
import Verif.Utils.ChopProps
import Verif.Readers.Treat
import Verif.Readers.TreatSpec
import Verif.Readers.TreatLemmas
import Verif.Readers.TreatCplx
import Verif.Readers.TreatUnits
import Verif.Readers.TreatProps
import Verif.Readers.TreatExamples
import Verif.Readers.TreatWithExamples
import Verif.Readers.ValuesProps
import Verif.Plot.Draw
import Verif.Plot.DrawProps
import Verif.Plot.DrawHistory
import Verif.Plot.DrawExamples
import Verif.Readers.OneFile
import Verif.Readers.Quiet
import Verif.Readers.Given
import Verif.Readers.NoCalls
import Verif.Readers.Beside
import Verif.Citi.Steps
import Verif.Citi.Saved
import Verif.Citi.Again
import Verif.Citi.StepsExamples
import Verif.Touchstone.Steps
import Verif.Touchstone.StepsProps
import Verif.Touchstone.Again
import Verif.Touchstone.StepsExamples
import Verif.Readers.Elements
import Verif.Mdif.SavedText
import Verif.Mdif.Again
import Verif.Mdif.AgainExamples
import Verif.Plot.Arrange
import Verif.Plot.ArrangeProps
import Verif.Plot.PositionsProps
import Verif.Plot.PositionsExamples
import Verif.Plot.ArrangeExamples
import Verif.Muwave.Examples
import Verif.Smith.PolarProps
import Verif.Share.Props
import Verif.Share.CopyProps
import Verif.Share.ViewProps
import Verif.Share.RemarkProps
import Verif.Share.MoveProps
import Verif.Share.DeriveProps
import Verif.Share.PutProps
import Verif.Share.Examples
import Verif.Plot.Axes
import Verif.Plot.AxesSpec
import Verif.Plot.AxesLemmas
import Verif.Plot.AxesProps
import Verif.Plot.AxesExamples
import Verif.Plot.Polar
import Verif.Plot.PolarProps
import Verif.Plot.PolarExamples
import Verif.Readers.Saved
import Verif.Readers.SavedLemmas
import Verif.Readers.SavedProps
import Verif.Readers.SavedExamples
import Verif.Readers.Whole
import Verif.Readers.WholeProps
import Verif.Readers.WholeExamples
import Verif.Readers.Newlines
import Verif.Readers.Codec
import Verif.Readers.CodecLemmas
import Verif.Readers.CodecProps
import Verif.Readers.CodecExamples
import Verif.Config.Session
import Verif.Config.SessionLemmas
import Verif.Config.SessionProps
import Verif.Config.SessionExamples
import Verif.DataBlock.DirProps
import Verif.Utils.StampProps
import Verif.Readers.TableProps
import Verif.HFArray.ReduceAllProps
import Verif.Plot.FiguresProps
import Verif.DataBlock.XAxisExamples
import Verif.Networks.WideProps
import Verif.Config.LayersProps
import Verif.HFArray.FindProps
import Verif.Utils.DirsProps
import Verif.Readers.SavingProps
import Verif.HFArray.MakeProps
import Verif.HFArray.Tags
import Verif.HFArray.TagsProps
import Verif.Hdf5.Handles
import Verif.Hdf5.HandlesProps
import Verif.Sp.Dates
import Verif.Sp.DatesProps
import Verif.Networks.New
import Verif.Networks.NewProps
