import Verif.Basic
import Verif.Index.Props
import Verif.Core.AccessProps
import Verif.Core.AppendProps
import Verif.Core.RemoveProps
import Verif.Core.RearrangeProps
import Verif.Core.ShapeProps
import Verif.Core.ViewProps
import Verif.Core.OpsProps
import Verif.Thread.ParallelForProps
import Verif.Thread.QueueProps
import Verif.Thread.WorkerProps
import Verif.Thread.PoolProps
import Verif.Find.SortProps
import Verif.Find.FindProps
import Verif.Find.BoundProps
import Verif.Find.AstarProps
import Verif.Math.PartialProps
import Verif.Math.OrderProps
import Verif.Math.HistProps
import Verif.Math.GridProps
import Verif.Math.IntegrateProps
import Verif.Str.SplitProps
import Verif.Str.TrimProps
import Verif.Str.WordProps
import Verif.Str.RegexProps
import Verif.Str.HashProps
import Verif.Io.PathProps
import Verif.Io.TimeProps
import Verif.Io.AsciiProps
import Verif.Io.TableProps
import Verif.Io.NameProps
import Verif.Io.ArgvProps
import Verif.Core.IlistProps
import Verif.Astro.ShiftProps
import Verif.Astro.RegionProps
import Verif.Astro.InflateProps
import Verif.Astro.FilterProps
import Verif.Astro.WalkProps
import Verif.Index.StrideProps
import Verif.Math.LUProps
import Verif.Math.CholProps
import Verif.Math.LinfitProps
import Verif.Math.LapackProps
import Verif.Astro.QxProps
import Verif.Astro.QxRefute
import Verif.Math.RandomProps
import Verif.Math.HullDist
import Verif.Math.SplineProps
import Verif.Math.BicubicProps
import Verif.Astro.Coord
import Verif.Astro.CoordProps
import Verif.Astro.SkyProps
import Verif.Astro.Units
import Verif.Astro.UnitsProps
import Verif.Astro.Sed
import Verif.Astro.SedProps
import Verif.Astro.Sex
import Verif.Astro.SexProps
import Verif.Math.Stats
import Verif.Math.StatsProps
import Verif.Math.WeightProps
import Verif.Math.Romberg
import Verif.Math.RombergProps
import Verif.Math.Gauss
import Verif.Math.GaussProps
import Verif.Astro.Tfit
import Verif.Astro.TfitProps
import Verif.Astro.Limweight
import Verif.Astro.LimweightProps
import Verif.Astro.Catalog
import Verif.Astro.CatalogProps
import Verif.Astro.Ds9
import Verif.Astro.Ds9Props
import Verif.Astro.Ds9Mask
import Verif.Astro.Ds9MaskProps
import Verif.Astro.Profile
import Verif.Astro.ProfileProps
import Verif.Astro.Qstack
import Verif.Astro.QstackProps
import Verif.Math.Matrix
import Verif.Math.MatrixProps
import Verif.Io.Header
import Verif.Io.HeaderProps
import Verif.Io.HeaderParseProps
import Verif.Astro.WcsHeader
import Verif.Astro.WcsHeaderProps
import Verif.Astro.Wcs
import Verif.Astro.WcsProps
import Verif.Astro.WcsLife
import Verif.Astro.WcsLifeProps
import Verif.Io.FitsTable
import Verif.Io.FitsTableLemmas
import Verif.Io.FitsTableProps
import Verif.Io.FitsColsProps
import Verif.Io.FitsTableRefuted
import Verif.Io.FitsConvProps
import Verif.Io.FitsElemProps
import Verif.Astro.SegDist
import Verif.Astro.SegDistLemmas
import Verif.Astro.SegDistProps
import Verif.Astro.Fft
import Verif.Astro.FftLemmas
import Verif.Astro.ConvLemmas
import Verif.Astro.ConvProps
import Verif.Astro.ConvolverProps
import Verif.Astro.TransitionProps
import Verif.Io.FitsImage
import Verif.Io.FitsImageProps
import Verif.Io.FitsSubsetProps
import Verif.Io.FitsStatus
import Verif.Io.FitsStatusProps
import Verif.Astro.Deblend
import Verif.Astro.DeblendWalk
import Verif.Astro.DeblendLook
import Verif.Astro.DeblendGrow
import Verif.Astro.DeblendIsl
import Verif.Astro.DeblendProps
import Verif.Astro.DeblendSmall
import Verif.Astro.DeblendSmallProps
import Verif.Astro.Regrid
import Verif.Astro.RegridClip
import Verif.Astro.RegridRect
import Verif.Astro.RegridPix
import Verif.Astro.RegridSum
import Verif.Astro.RegridCover
import Verif.Astro.RegridProps
import Verif.Astro.RegridMapProps
import Verif.Astro.RegridInterp
import Verif.Astro.RegridInterpProps
import Verif.Astro.Cutout
import Verif.Astro.CutoutProps
import Verif.Str.Conv
import Verif.Str.ConvProps
import Verif.Math.Mpfit
import Verif.Math.MpfitLemmas
import Verif.Math.MpfitInv
import Verif.Math.MpfitAlg
import Verif.Math.MpfitProps
import Verif.Math.MpfitQR
import Verif.Math.MpfitTerm
import Verif.Math.MpfitQRProps
import Verif.Math.MpfitSolve
import Verif.Math.MpfitSolveProps
import Verif.Math.MpfitCovar
import Verif.Astro.RandPos
import Verif.Astro.RandPosLemmas
import Verif.Astro.RandPosProps
import Verif.Astro.Angcorrel
import Verif.Astro.AngcorrelProps
import Verif.Astro.FilterDb
import Verif.Astro.FilterDbProps
import Verif.Astro.Pick
import Verif.Astro.PickProps
import Verif.Astro.Cosmo
import Verif.Astro.CosmoProps
import Verif.Astro.PsfFit
import Verif.Astro.PsfFitProps
import Verif.Astro.MakePsf
import Verif.Astro.MakePsfProps
import Verif.Astro.MakePsfPlace
import Verif.Io.ArgvListProps
import Verif.Io.ArgvListMore
import Verif.Io.HeaderFileProps
import Verif.Math.LapackSymProps
import Verif.Astro.StackProps
import Verif.Core.VectorizeProps
import Verif.Math.MinMaxProps
import Verif.Math.OptimizeProps
import Verif.Astro.TranslateCubicProps
import Verif.Astro.FieldAreaProps
import Verif.Astro.FieldAreaH2d
import Verif.Astro.FieldAreaH2dLemmas
import Verif.Astro.FieldAreaH2dCell
import Verif.Astro.FieldAreaH2dGrid
import Verif.Astro.FieldAreaH2dProps
import Verif.Astro.FieldAreaH2dField
import Verif.Math.MpfitEvals
import Verif.Astro.Cure
import Verif.Astro.CureProps
import Verif.Core.UnitTest
import Verif.Core.UnitTestProps
import Verif.Math.Convolve
import Verif.Math.ConvolveProps
import Verif.Io.Progress
import Verif.Io.ProgressProps
import Verif.Tools.Prompt
import Verif.Tools.PromptProps
import Verif.Tools.Fitstool
import Verif.Tools.FitstoolProps
import Verif.Tools.FitstoolRemove
import Verif.Tools.FitsColumns
import Verif.Tools.FitsColumnsProps
import Verif.Tools.FitsMeta
import Verif.Tools.CopyWcs
import Verif.Tools.PixfitAdd
import Verif.Tools.PixfitAddProps
import Verif.Tools.PixfitLimits
import Verif.Tools.PixfitMaps
import Verif.Tools.PixfitMapsProps
import Verif.Tools.Qregrid
import Verif.Tools.Circles
import Verif.Tools.CirclesProps
import Verif.Tools.FindZero
import Verif.Tools.GfitGroups
import Verif.Tools.GfitSearch
import Verif.Tools.GfitFit
import Verif.Core.Reflex
import Verif.Core.ReflexProps
import Verif.Astro.CatalogCache
import Verif.Tools.ExtractGroups
import Verif.Tools.ExtractFit
import Verif.Tools.ExtractPost
import Verif.Tools.ExtractAper
import Verif.Tools.ExtractRes
import Verif.Tools.Combine
import Verif.Tools.ReadPsf
import Verif.Tools.Residual
import Verif.Tools.Qaper
import Verif.Tools.QaperBand
import Verif.Tools.Fits2Ascii
import Verif.Tools.FindSrc
import Verif.Tools.Subsrc
import Verif.Math.VifComplex
import Verif.Tools.Qstack2
import Verif.Tools.GetGal
import Verif.Tools.LeastSq
import Verif.Tools.FluxCube
import Verif.Astro.QxBucketThreads
import Verif.Str.Blocks
import Verif.Tools.PsfFit
import Verif.Tools.Qconvol
import Verif.Tools.RefgenWrap
import Verif.Tools.RefgenMembers
import Verif.Tools.RefgenWrite
import Verif.Astro.Rotate
import Verif.Tools.FindPrior
import Verif.Math.RunDim
import Verif.Str.Terminal
import Verif.Math.HullDistVec
import Verif.Tools.FitsR2c
import Verif.Tools.PixCutout
import Verif.Tools.RandSrc
import Verif.Tools.Radec2Pix
import Verif.Tools.PhotInfo
import Verif.Astro.CatalogStruct
import Verif.Astro.CatComments
import Verif.Tools.GfitPrep
import Verif.Tools.ExtractCell
import Verif.Astro.SedConvert
import Verif.Tools.PixfitPrep
import Verif.Io.ReadSentry
import Verif.Io.AsciiGroups
import Verif.Astro.CatList
import Verif.Math.RandomPdf
import Verif.Tools.RefgenRange
import Verif.Tools.FitsExtract
import Verif.Tools.Qxmatch2
import Verif.Tools.Imgtool
import Verif.Io.FitsColsInfo
import Verif.Str.PrettyType
import Verif.Str.HashCategory
import Verif.Str.StreamFormat
import Verif.Str.Demangled
