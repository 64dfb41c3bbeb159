import Verif.Geometry.Model
import Verif.Geometry.Spec
import Verif.Geometry.Lemmas
import Verif.Geometry.Props
import Verif.QuadTree.Model
import Verif.QuadTree.Spec
import Verif.QuadTree.Lemmas
import Verif.QuadTree.Props
import Verif.Container.Model
import Verif.Container.Spec
import Verif.Container.Lemmas
import Verif.Container.Props
import Verif.Utils.Model
import Verif.Utils.Spec
import Verif.Utils.Props
import Verif.Boundary.Model
import Verif.Boundary.Spec
import Verif.Boundary.Lemmas
import Verif.Boundary.Props
import Verif.Boundary.InsideProps
import Verif.Boundary.CsvProps
import Verif.Boundary.Shapes
import Verif.Domain.Model
import Verif.Domain.Spec
import Verif.Domain.Props
import Verif.Domain.EditModel
import Verif.Domain.EditSpec
import Verif.Domain.EditLemmas
import Verif.Domain.EditProps
import Verif.Front.Model
import Verif.Front.Spec
import Verif.Front.Sub
import Verif.Front.Lemmas
import Verif.Front.Props
import Verif.Front.Graded
import Verif.Front.GradedProps
import Verif.Mesh.Model
import Verif.Mesh.Spec
import Verif.Mesh.Lemmas
import Verif.Mesh.Props
import Verif.FrontUpdate.Model
import Verif.FrontUpdate.Spec
import Verif.FrontUpdate.Lemmas
import Verif.FrontUpdate.Cand
import Verif.FrontUpdate.Step
import Verif.FrontUpdate.Sums
import Verif.FrontUpdate.Trips
import Verif.FrontUpdate.Count
import Verif.FrontUpdate.Best
import Verif.FrontUpdate.Tiling
import Verif.FrontUpdate.Props
import Verif.FrontUpdate.Winding
import Verif.FrontUpdate.Region
import Verif.FrontUpdate.Free
import Verif.FrontUpdate.SimpleRun
import Verif.FrontUpdate.SimpleProps
import Verif.Triangulation.Model
import Verif.Triangulation.Spec
import Verif.Triangulation.Lemmas
import Verif.Triangulation.Props
import Verif.Cleanup.Model
import Verif.Cleanup.Spec
import Verif.Cleanup.Check
import Verif.Cleanup.Lemmas
import Verif.Cleanup.Conn
import Verif.Cleanup.Resume
import Verif.Cleanup.Props
import Verif.Cleanup.Merge
import Verif.Cleanup.MergeProps
import Verif.Cleanup.Degree3
import Verif.Cleanup.Degree3Loop
import Verif.Cleanup.Scan
import Verif.Cleanup.DegreeProps
import Verif.Refinement.Model
import Verif.Refinement.Spec
import Verif.Refinement.Lemmas
import Verif.Refinement.Loop
import Verif.Refinement.Facets
import Verif.Refinement.Result
import Verif.Refinement.Conform
import Verif.Refinement.Geom
import Verif.Refinement.Props
import Verif.Merger.Model
import Verif.Merger.Spec
import Verif.Merger.Lemmas
import Verif.Merger.Loops
import Verif.Merger.Result
import Verif.Merger.Transfer
import Verif.Merger.Conform
import Verif.Merger.Props
import Verif.Smoothing.Model
import Verif.Smoothing.Spec
import Verif.Smoothing.Lemmas
import Verif.Smoothing.Area
import Verif.Smoothing.Props
import Verif.Smoothing.Laplace
import Verif.Smoothing.LaplaceProps
import Verif.Generator.Model
import Verif.Generator.Spec
import Verif.Generator.Lemmas
import Verif.Generator.Props
import Verif.Generator.Prepare
import Verif.Generator.PrepareProps
import Verif.QuadLayer.Model
import Verif.QuadLayer.Spec
import Verif.QuadLayer.Log
import Verif.QuadLayer.Lemmas
import Verif.QuadLayer.Steps
import Verif.QuadLayer.Run
import Verif.QuadLayer.Link
import Verif.QuadLayer.Track
import Verif.QuadLayer.Layers
import Verif.QuadLayer.Props
import Verif.QuadLayer.Ends
import Verif.QuadLayer.Examples
import Verif.Writer.Model
import Verif.Writer.Spec
import Verif.Writer.Lemmas
import Verif.Writer.VtuLemmas
import Verif.Writer.Props
import Verif.Writer.TxtProps
import Verif.Reader.Model
import Verif.Reader.Spec
import Verif.Reader.Lemmas
import Verif.Reader.Props
import Verif.Reader.MatrixLemmas
import Verif.Reader.MatrixProps
import Verif.App.Model
import Verif.App.Props
import Verif.Whole.Props
import Verif.Angles.Props
import Verif.Whole.Rim
import Verif.Whole.Layer
import Verif.Whole.Layer2
import Verif.Whole.Layer3
import Verif.Whole.Layer4
import Verif.Whole.Layer5
import Verif.Whole.Work
import Verif.Whole.WorkProps
import Verif.Cleanup.Doubles
import Verif.Whole.Fan
import Verif.Whole.Twins
import Verif.Whole.TwinGeo
import Verif.Whole.CleanSpec
import Verif.Whole.CleanModel
import Verif.Whole.Doubles
import Verif.Whole.Doubles2
import Verif.Whole.Doubles3
import Verif.Whole.Clean
import Verif.Whole.Pairs
import Verif.Whole.Coarse
import Verif.Whole.CleanProps
import Verif.Whole.Ptr
import Verif.Whole.Flag
import Verif.Whole.Final
import Verif.Whole.FinalSpec
import Verif.Whole.Smooth
import Verif.Whole.Refine
import Verif.Whole.Fold
import Verif.Whole.FinalProps
import Verif.Whole.Reach
import Verif.Whole.AppModel
import Verif.Whole.Counter
import Verif.Whole.AppSpec
import Verif.Whole.AppRun
import Verif.Whole.AppProps
import Verif.Whole.UnionSpec
import Verif.Whole.Union
import Verif.Whole.UnionLine
import Verif.Whole.UnionProps
import Verif.Whole.Links
import Verif.Whole.NextSpec
import Verif.Whole.Next
import Verif.Whole.NextProps
import Verif.Whole.NextExample
import Verif.Whole.RimLayer
import Verif.Whole.LinkProps
import Verif.FrontUpdate.AreaPos
import Verif.Triangulation.Term
import Verif.Whole.TermSpec
import Verif.Whole.TermProps
import Verif.Whole.OutlineSpec
import Verif.Whole.Outline
import Verif.Whole.Convex
import Verif.Whole.Holes
import Verif.Whole.Shapes
import Verif.Whole.OutlineProps
import Verif.Output.Spec
import Verif.Output.Lemmas
import Verif.Output.Props
import Verif.Output.TxtProps
import Verif.Config.Model
import Verif.Config.Spec
import Verif.Config.Keys
import Verif.Config.Read
import Verif.Config.Steps
import Verif.Config.Inits
import Verif.Config.Construct
import Verif.Config.File
import Verif.Config.Check
import Verif.Config.Props
import Verif.Config.RegModel
import Verif.Config.RegProps
import Verif.Whole.FileModel
import Verif.Whole.FileSpec
import Verif.Whole.FileLemmas
import Verif.Whole.FileStart
import Verif.Whole.FileProps
import Verif.Whole.SizeModel
import Verif.Whole.SizeSpec
import Verif.Whole.SizeLemmas
import Verif.Whole.SizeProps
import Verif.Whole.LocalLemmas
import Verif.Whole.LocalProps
import Verif.Whole.ExprModel
import Verif.Whole.ExprProps
import Verif.Whole.MultiModel
import Verif.Whole.MultiLemmas
import Verif.Whole.MultiSpec
import Verif.Whole.MultiSearch
import Verif.Whole.MultiProps
import Verif.Whole.SeveralModel
import Verif.Whole.SeveralSpec
import Verif.Whole.SeveralLemmas
import Verif.Whole.Marks
import Verif.Whole.ReadyLemmas
import Verif.Whole.SeveralProps
import Verif.Whole.SeveralExample
import Verif.Whole.CountSpec
import Verif.Whole.CountProps
import Verif.Whole.OverlapModel
import Verif.Whole.OverlapSpec
import Verif.Whole.Overlap
import Verif.Whole.OverlapProps
import Verif.Console.Model
import Verif.Console.Spec
import Verif.Console.Lemmas
import Verif.Console.Props
import Verif.Whole.Colours
import Verif.Whole.ColourRegions
import Verif.Whole.ColourSpec
import Verif.Whole.ColourProps
import Verif.Whole.ColourExample
import Verif.Whole.BdryMarks
import Verif.Whole.BdryRun
import Verif.Whole.BdryFront
import Verif.Whole.BdrySpec
import Verif.Whole.BdryMade
import Verif.Whole.BdryProps
import Verif.Whole.BdryExample
import Verif.Whole.KeptSpec
import Verif.Whole.KeptMade
import Verif.Whole.KeptFront
import Verif.Whole.KeptProps
import Verif.Whole.KeptExample
import Verif.Output.MarkSpec
import Verif.Output.MarkProps
import Verif.Output.FileProps
import Verif.QuadTree.PrintModel
import Verif.QuadTree.PrintSpec
import Verif.QuadTree.PrintProps
import Verif.App.MainModel
import Verif.App.MainProps
import Verif.App.EchoModel
import Verif.App.EchoSpec
import Verif.App.EchoProps
import Verif.Extent.Model
import Verif.Extent.Spec
import Verif.Extent.Props
import Verif.QuadTree.SetupProps
import Verif.Move.Props
import Verif.QuadLayer.TermProps
import Verif.Geometry.UnitProps
import Verif.FrontUpdate.SmallProps
import Verif.Triangulation.PlaceProps
import Verif.QuadTree.PlaceProps
import Verif.Refinement.PlaceLemmas
import Verif.Cleanup.PlaceLemmas
import Verif.Smoothing.PlaceSpec
import Verif.Smoothing.PlaceLemmas
import Verif.Smoothing.PlaceProps
import Verif.QuadLayer.PlaceSpec
import Verif.QuadLayer.PlaceLemmas
import Verif.QuadLayer.PlaceProps
import Verif.Cleanup.OrderModel
import Verif.Cleanup.OrderSpec
import Verif.Cleanup.OrderLemmas
import Verif.Cleanup.OrderProps
import Verif.Smoothing.CoordModel
import Verif.Smoothing.CoordSpec
import Verif.Smoothing.CoordProps
