import Verif.Serializer.Props
import Verif.Base64.Props
import Verif.CRC.Props
import Verif.Math.Props
import Verif.Hashtable.Props
import Verif.Str.EditProps
import Verif.Str.HashProps
import Verif.Str.CmpProps
import Verif.Str.PartProps
import Verif.Str.SearchProps
import Verif.Num.Props
import Verif.Charset.Utf8Props
import Verif.Charset.Utf16Props
import Verif.Charset.PageProps
import Verif.Num.IntegerProps
import Verif.Url.Props
import Verif.Str.ArgProps
import Verif.Sort.Props
import Verif.Lists.TokenizerProps
import Verif.Lists.StringListProps
import Verif.Stack.Props
import Verif.Arrays.Props
import Verif.Date.Props
import Verif.Undo.Props
import Verif.LinkedList.Props
import Verif.Diff.Props
import Verif.MemStream.Model
import Verif.MemStream.Spec
import Verif.MemStream.Props
import Verif.RefCount.Model
import Verif.RefCount.Spec
import Verif.RefCount.Props
import Verif.Inflate.Props
import Verif.Xml.Model
import Verif.Xml.Spec
import Verif.Xml.ParserProofs
import Verif.Xml.WriterProofs
import Verif.Xml.Props
import Verif.Xml.ReadProps
import Verif.Path.Model
import Verif.Path.Spec
import Verif.Path.Lemmas
import Verif.Path.Props
import Verif.Str.SafeProps
import Verif.Prefs.Defects
import Verif.Zip.Props
import Verif.Zip.Defects
import Verif.Zip.CrcProps
import Verif.Fp.Model
import Verif.Fp.Round
import Verif.Fp.Lemmas
import Verif.Fp.Props
import Verif.Fp.Mono
import Verif.Math.FpModel
import Verif.Math.FpTol
import Verif.Math.FpTolProps
import Verif.Math.FpRound
import Verif.Math.FpProps
import Verif.Geo.Extents
import Verif.Geo.Rect
import Verif.Geo.RectProps
import Verif.Fp.Val
import Verif.Fp32.Model
import Verif.Fp32.Round
import Verif.Fp32.Lemmas
import Verif.Fp32.Props
import Verif.Fp32.Mono
import Verif.Fp32.Val
import Verif.Fp32.Rel
import Verif.Math.FpMore
import Verif.Color.Model
import Verif.Color.Lemmas
import Verif.Color.Props
import Verif.Color.BlendProps
import Verif.Color.HsvProps
import Verif.Color.HsvRound
import Verif.Color.TranslucentProps
import Verif.Exact.Arith
import Verif.Mat.Model
import Verif.Mat.Lemmas
import Verif.Mat.Props
import Verif.Mat.ExactProps
import Verif.Mat.TransProps
import Verif.Vtx.Model
import Verif.Vtx.Spec
import Verif.Vtx.Props
import Verif.Vtx.PlaneProps
import Verif.Vtx.RotProps
import Verif.Vtx.EigenProps
import Verif.Geom.Model
import Verif.Geom.Spec
import Verif.Geom.PlaneProps
import Verif.Geom.LineProps
import Verif.Geom.Plane2Props
import Verif.Geom.CircleProps
import Verif.Geom.TangentProps
import Verif.Geom.ArcProps
import Verif.Geom.RayProps
import Verif.Nurbs.Model
import Verif.Nurbs.Spec
import Verif.Nurbs.Lemmas
import Verif.Nurbs.Props
import Verif.DateFmt.Model
import Verif.DateFmt.Spec
import Verif.DateFmt.Lemmas
import Verif.DateFmt.Props
import Verif.I18n.Model
import Verif.I18n.Spec
import Verif.I18n.Props
import Verif.I18n.FileProps
import Verif.Guess.Model
import Verif.Guess.Spec
import Verif.Guess.Lemmas
import Verif.Guess.Props
import Verif.Property.Model
import Verif.Property.Spec
import Verif.Property.Props
import Verif.UndoRef.Model
import Verif.UndoRef.Spec
import Verif.UndoRef.Lemmas
import Verif.UndoRef.Refine
import Verif.UndoRef.Props
import Verif.DoubleFmt.Model
import Verif.DoubleFmt.Spec
import Verif.DoubleFmt.Lemmas
import Verif.DoubleFmt.Parts
import Verif.DoubleFmt.Props
import Verif.Fp.Rel
import Verif.DoubleText.Model
import Verif.DoubleText.Spec
import Verif.DoubleText.Lemmas
import Verif.DoubleText.Texts
import Verif.DoubleText.Props
import Verif.Prefs.DoubleProps
import Verif.Own.Machine
import Verif.Own.Block
import Verif.Own.Model
import Verif.Own.Spec
import Verif.Own.Lemmas
import Verif.Own.Sound
import Verif.Own.Sound2
import Verif.Own.SoundMat
import Verif.Own.Implicit
import Verif.Own.Resource
import Verif.Own.Props
import Verif.Thread.Machine
import Verif.Thread.Calls
import Verif.Thread.Lock
import Verif.Thread.Program
import Verif.Thread.Interrupt
import Verif.Thread.Props
import Verif.Thread.Sleep
import Verif.Log.Monitor
import Verif.Log.Model
import Verif.Log.Props
import Verif.FileIO.Stdio
import Verif.FileIO.Model
import Verif.FileIO.Ideal
import Verif.FileIO.Session
import Verif.FileIO.Life
import Verif.FileIO.Props
import Verif.FileIO.Handles
import Verif.FileIO.HandleProps
import Verif.UnitTest.Model
import Verif.UnitTest.Props
import Verif.UnitTest.DoubleProps
import Verif.TextIO.Model
import Verif.TextIO.Props
import Verif.Tags.Model
import Verif.Tags.Props
import Verif.Deflate.Model
import Verif.Deflate.Props
import Verif.Dirs.Model
import Verif.Dirs.Lemmas
import Verif.Dirs.Props
import Verif.Geo.Anchors
import Verif.Math.FpFrac
import Verif.Math.FpFloat
import Verif.Life.Model
import Verif.Life.Props
import Verif.Life.Defects
import Verif.Prog.Model
import Verif.Prog.Props
import Verif.Xml.Typed
import Verif.Xml.TypedFloat
import Verif.Xml.TypedProps
import Verif.Doc.Model
import Verif.Doc.Spec
import Verif.Doc.Refine
import Verif.Doc.Abs
import Verif.Doc.Changed
import Verif.Doc.Props
import Verif.FpVec.Spec
import Verif.FpVec.Calc
import Verif.FpVec.Sum
import Verif.FpVec.Props
import Verif.FpVec.DetProps
import Verif.FpVec.IntProps
import Verif.FpVec.InvProps
import Verif.FpVec.SideProps
import Verif.DiffMem.Model
import Verif.DiffMem.Spec
import Verif.DiffMem.Diags
import Verif.DiffMem.Steps
import Verif.DiffMem.Refine
import Verif.DiffMem.Props
import Verif.DiffMem.Values
import Verif.DiffMem.ValueProps
import Verif.Arrays.PtrModel
import Verif.Arrays.PtrProps
import Verif.UndoMem.Model
import Verif.UndoMem.Lemmas
import Verif.UndoMem.Layout
import Verif.UndoMem.Refine
import Verif.UndoMem.Run
import Verif.UndoMem.Props
import Verif.CRC.Burst
import Verif.Undo.Typed
import Verif.ObjCopy.Props
import Verif.FpLen.AccProps
import Verif.Home.Props
import Verif.DateVal.Props
import Verif.Str.EditMore
import Verif.Sys.Props
import Verif.Sys.UserProps
import Verif.Geo.Near
import Verif.HashMem.Props
import Verif.HashMem.UserProps
import Verif.UndoRef.States
import Verif.UndoRef.ListSpec
import Verif.UndoRef.ListSeg
import Verif.UndoRef.ListExec
import Verif.UndoRef.ListOps
import Verif.UndoRef.ListSim
import Verif.UndoRef.ListSim2
import Verif.UndoRef.ListSwap
import Verif.UndoRef.ListSim3
import Verif.UndoRef.ListProps
import Verif.LinkedList.IterSpec
import Verif.LinkedList.IterKeep
import Verif.LinkedList.IterOps
import Verif.LinkedList.IterStep
import Verif.LinkedList.IterProps
import Verif.Inflate.Count
import Verif.Inflate.CountProps
import Verif.Str.Concat
import Verif.Str.ConcatProps
import Verif.Str.AtProps
import Verif.Geom.AliasProps
import Verif.Arrays.AliasProps
import Verif.Str.UndoProps
import Verif.Str.CharProps
import Verif.Vtx.VecProps
import Verif.Vtx.MeasureProps
import Verif.Geo.AlignProps
import Verif.DateVal.DayProps
import Verif.Undo.BufferProps
import Verif.UndoRef.Off
import Verif.Geom.ShortProps
import Verif.Vtx.RotMore
import Verif.Math.FpLessProps
import Verif.Geo.RectMore
import Verif.Print.Props
import Verif.Print.ExcProps
import Verif.Math.RandomProps
import Verif.Math.FpTotalProps
import Verif.Math.InterpProps
import Verif.Geom.PlaneMore
import Verif.Geom.CircleMore
import Verif.Geom.LineMore
import Verif.Geom.Plane2More
import Verif.Mat.AddMore
import Verif.Guess.More
import Verif.Xml.TextProps
import Verif.Arrays.InitProps
import Verif.Inflate.SortProps
