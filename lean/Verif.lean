import Verif.Go.Basic
import Verif.Password.Model
import Verif.Password.Spec
import Verif.Password.LemmasRand
import Verif.Password.Lemmas
import Verif.Password.Uniform
import Verif.Password.LemmasGen
import Verif.Password.Props
import Verif.FormGen.Model
import Verif.FormGen.Spec
import Verif.FormGen.Props
import Verif.FormGen.FormSpec
import Verif.FormGen.FormProps
import Verif.FormGen.FormUniform
import Verif.FormGen.Exact
import Verif.FormGen.FormProb
import Verif.Crypter.Machine
import Verif.Crypter.Code256
import Verif.Crypter.Code512
import Verif.Crypter.Code1024
import Verif.Crypter.Spec
import Verif.Crypter.Norm
import Verif.Crypter.Compile
import Verif.Crypter.Check
import Verif.Crypter.Model
import Verif.Crypter.SpecApi
import Verif.Crypter.Lemmas
import Verif.Crypter.Props
import Verif.QR.GFModel
import Verif.QR.GFSpec
import Verif.QR.GFLemmas
import Verif.QR.RSSpec
import Verif.QR.RSLemmas
import Verif.QR.QRField
import Verif.QR.GFProps
import Verif.QR.NewField
import Verif.QR.CodingModel
import Verif.QR.QRSpec
import Verif.QR.BitsLemmas
import Verif.QR.SegLemmas
import Verif.QR.FillLemmas
import Verif.QR.GridLemmas
import Verif.QR.VPlanLemmas
import Verif.QR.CountLemmas
import Verif.QR.LPlanLemmas
import Verif.QR.PlanLemmas
import Verif.QR.ReadLemmas
import Verif.QR.DecodeLemmas
import Verif.QR.QRProps
import Verif.QR.RenderModel
import Verif.QR.RenderSpec
import Verif.QR.RenderProps
import Verif.Go.Utf8
import Verif.Closest.Model
import Verif.Closest.Spec
import Verif.Closest.Lemmas
import Verif.Closest.IndexLemmas
import Verif.Closest.Props
import Verif.Closest.HistorySpec
import Verif.Closest.HistoryProps
import Verif.Closest.Shared
import Verif.Closest.SharedProps
import Verif.Closest.Accuracy
import Verif.Closest.AccuracySpec
import Verif.Closest.AccuracyLemmas
import Verif.Closest.AccuracyProps
import Verif.Go.Order
import Verif.Go.Path
import Verif.Go.Strings
import Verif.Repo.Model
import Verif.Repo.Spec
import Verif.Repo.ScanLemmas
import Verif.Repo.Props
import Verif.Repo.ReadProps
import Verif.Repo.RootProps
import Verif.Repo.SlashRoot
import Verif.Repo.GitRoot
import Verif.Cmds.Model
import Verif.Cmds.Spec
import Verif.Cmds.Props
import Verif.Cmds.EnvProps
import Verif.Cmds.InsertProps
import Verif.Cmds.ExactProps
import Verif.Glob.Runes
import Verif.Glob.GoStrings
import Verif.Glob.Match
import Verif.Glob.Segments
import Verif.Clipboard.Model
import Verif.Clipboard.Props
import Verif.Clipboard.Session
import Verif.Clipboard.SessionProps
import Verif.Glob.Syntax
import Verif.Glob.Compile
import Verif.Glob.Spec
import Verif.Glob.StrLemmas
import Verif.Glob.Lang
import Verif.Glob.Good
import Verif.Glob.LenProps
import Verif.Glob.IndexProps
import Verif.Glob.LoopProps
import Verif.Glob.GoodProps
import Verif.Glob.CompileLang
import Verif.Glob.TreeLang
import Verif.Glob.GlobLang
import Verif.Glob.CompileTotal
import Verif.Glob.LexProps
import Verif.Glob.Utf8Lemmas
import Verif.Glob.Quote
import Verif.Glob.Doc
import Verif.Glob.DocParse
import Verif.Glob.DocLang
import Verif.Glob.Flat
import Verif.Glob.FlatCompile
import Verif.Glob.FlatDoc
import Verif.Glob.FlatProps
import Verif.Glob.Props
import Verif.Clipboard.Windows
import Verif.Clipboard.WindowsProps
import Verif.Clipboard.Exec
import Verif.Clipboard.ExecProps
import Verif.Glob.Unclosed
import Verif.Glob.Split
import Verif.Glob.Stars
import Verif.Glob.Heap
import Verif.Glob.HeapSafe
import Verif.Glob.HeapProps
import Verif.Glob.Total
import Verif.Glob.TotalCompile
import Verif.Glob.TotalTree
import Verif.Glob.TotalLex
import Verif.Glob.TotalProps
import Verif.Main.Model
import Verif.Main.Spec
import Verif.Main.ExpandProps
import Verif.Main.Props
import Verif.Main.InsertProps
import Verif.GlobSearch.Model
import Verif.GlobSearch.Props
import Verif.GlobSearch.Lines
import Verif.Crypter.New64Props
import Verif.Crypter.CryptorProps
import Verif.Password.IntProps
import Verif.QR.CapacityProps
import Verif.Closest.SaveProps
import Verif.Glob.OneTerm
import Verif.Main.Clip
import Verif.Main.ClipProps
import Verif.Glob.Tool
import Verif.Glob.ToolProps
import Verif.Glob.RuneStr
import Verif.Glob.RuneLang
import Verif.Glob.RuneGood
import Verif.Glob.RuneAny
import Verif.Glob.RuneIdx
import Verif.Glob.RuneStart
import Verif.Glob.RuneProps
import Verif.Glob.FlatRune
import Verif.Glob.RuneGlob
import Verif.Glob.Factored
import Verif.Glob.WideSeq
import Verif.Glob.Braces
import Verif.Glob.WideDoc
import Verif.Glob.Wide
import Verif.Glob.BraceOrder
import Verif.Password.Shared
import Verif.Password.SharedProps
import Verif.Main.InsertSteps
import Verif.Main.InsertStepsProps
import Verif.Password.Int64
import Verif.Password.Int64Props
import Verif.Crypter.Shared
import Verif.Crypter.SharedProps
import Verif.Crypter.Panic
import Verif.Crypter.PanicProps
import Verif.Repo.Links
import Verif.Repo.LinksProps
import Verif.Repo.Scanner
import Verif.Repo.ScannerProps
import Verif.Main.Streams
import Verif.Main.StreamsProps
import Verif.Cmds.TrimProps
import Verif.Glob.DrawGlob
import Verif.Glob.Safe
import Verif.QR.AnyArgsProps
import Verif.QR.WriteAny
import Verif.QR.Words
import Verif.QR.WordsProps
import Verif.QR.WordsPlan
import Verif.QR.WordsMain
import Verif.QR.WriterProps
import Verif.Password.AnyBytes
import Verif.QR.DamageProps
import Verif.Password.Strength
import Verif.FormGen.FormStrength
import Verif.FormGen.UniqueStrength
import Verif.Closest.Wrap
import Verif.Glob.CostSlow
import Verif.Password.DrawsProps
import Verif.Password.DrawsTail
import Verif.Glob.ReaderMore
import Verif.Main.Ends
import Verif.Glob.CompileCostGlob
import Verif.Repo.ChangingProps
import Verif.Repo.LinksRootProps
import Verif.Closest.SaveRaceProps
import Verif.Glob.SepOrder
import Verif.Glob.RuneIndex
import Verif.Closest.JsonProps
import Verif.Closest.SaveFile
import Verif.Closest.LoadAny
import Verif.Glob.Everyday
import Verif.Glob.IndexSound
import Verif.Glob.IndexUtf8
import Verif.Password.Several
import Verif.Password.WSum
import Verif.Password.Bytes
import Verif.FormGen.BytesForm
import Verif.Password.BytesRead
import Verif.Password.BytesTail
import Verif.Closest.Depends
import Verif.Closest.More
import Verif.QR.AnyGlyphs
import Verif.Glob.Escape
import Verif.Cmds.Reveals
import Verif.Glob.StarRun
import Verif.Glob.QuoteNul
import Verif.Main.ShownCode
import Verif.Cmds.ReadBack
import Verif.Cmds.SameNumbers
import Verif.Cmds.FullName
import Verif.Cmds.Frame
import Verif.Cmds.Tie
import Verif.Cmds.Prints
import Verif.Cmds.PrintsCode
import Verif.Cmds.PrintsAll
import Verif.Cmds.EnvVal
import Verif.Cmds.ListSub
