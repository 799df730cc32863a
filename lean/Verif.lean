import Verif.Props.Amplify
import Verif.Props.AnyServer
import Verif.Props.AtOnce
import Verif.Props.Benches
import Verif.Props.Binary
import Verif.Props.BinaryExact
import Verif.Props.Bits
import Verif.Props.BitsExact
import Verif.Props.BitsLength
import Verif.Props.Chance
import Verif.Props.ChronoText
import Verif.Props.ChronoUse
import Verif.Props.Client
import Verif.Props.Concurrent
import Verif.Props.ConcurrentUse
import Verif.Props.Cursor
import Verif.Props.Cut
import Verif.Props.Daemon
import Verif.Props.Debug
import Verif.Props.Disk
import Verif.Props.DiskNames
import Verif.Props.Display
import Verif.Props.DisplayBare
import Verif.Props.DisplayText
import Verif.Props.ErrorText
import Verif.Props.ExportFile
import Verif.Props.FairLock
import Verif.Props.Format
import Verif.Props.Forward
import Verif.Props.Gone
import Verif.Props.Hangup
import Verif.Props.HashExact
import Verif.Props.Http
import Verif.Props.HttpChars
import Verif.Props.Huffman
import Verif.Props.HuffmanEnglish
import Verif.Props.HuffmanTree
import Verif.Props.IgnoreValue
import Verif.Props.Imaginary
import Verif.Props.ImaginarySerde
import Verif.Props.ImaginaryText
import Verif.Props.Integer
import Verif.Props.IntegerArith
import Verif.Props.IntegerConv
import Verif.Props.IntegerFloat
import Verif.Props.IntegerSerde
import Verif.Props.IntegerText
import Verif.Props.Isolation
import Verif.Props.IsolationConcurrent
import Verif.Props.JsonBytes
import Verif.Props.JsonDifferent
import Verif.Props.JsonExact
import Verif.Props.JsonExport
import Verif.Props.JsonForm
import Verif.Props.JsonMarks
import Verif.Props.JsonNear
import Verif.Props.JsonSettles
import Verif.Props.JsonSettlesNear
import Verif.Props.JsonSettlesText
import Verif.Props.JsonText
import Verif.Props.JsonUse
import Verif.Props.Launch
import Verif.Props.Listed
import Verif.Props.Lz4
import Verif.Props.Lz4Use
import Verif.Props.Mouse
import Verif.Props.MouseArgs
import Verif.Props.MouseChoice
import Verif.Props.MouseEntry
import Verif.Props.MouseKeys
import Verif.Props.MouseNever
import Verif.Props.MouseStd
import Verif.Props.MouseText
import Verif.Props.Names
import Verif.Props.Nesting
import Verif.Props.NoTimestamps
import Verif.Props.Once
import Verif.Props.Polar
import Verif.Props.RaceFree
import Verif.Props.RaceFreeReads
import Verif.Props.RaceFreeSame
import Verif.Props.Reads
import Verif.Props.RepoTests
import Verif.Props.Reread
import Verif.Props.SaveList
import Verif.Props.SaveOrder
import Verif.Props.SavePast
import Verif.Props.Saver
import Verif.Props.Size
import Verif.Props.StdText
import Verif.Props.StopStart
import Verif.Props.Store
import Verif.Props.StoreJsonExact
import Verif.Props.StoreSerde
import Verif.Props.Untied
import Verif.Props.Value
import Verif.Props.ValueAccess
import Verif.Props.ValueEq
import Verif.Props.ValueExact
import Verif.Props.ValueFails
import Verif.Props.ValueJson
import Verif.Props.ValueLoop
import Verif.Props.ValueNear
import Verif.Props.ValueYields
import Verif.Props.Wire
import Verif.Audit
