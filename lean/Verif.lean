import Verif.Common
import Verif.Json.Model
import Verif.Json.Props
import Verif.Json.PropsText
import Verif.Json.PropsParse
import Verif.Json.PropsUpdate
import Verif.Func.PropsLike
import Verif.Func.PropsText
import Verif.Func.PropsDate
import Verif.Func.PropsInterval
import Verif.Func.PropsIvUnits
import Verif.Parse.Props
import Verif.Repl.Props
import Verif.Parse.PropsLex
import Verif.Parse.PropsText
import Verif.Func.PropsTime
import Verif.Func.PropsZone
import Verif.Codec.Props
import Verif.Store.Props

import Verif.Row.Props
import Verif.Index.Props
import Verif.Index.PropsText
import Verif.Index.PropsHash
import Verif.Index.PropsMerge
import Verif.Object.Props
import Verif.Part.Props
import Verif.Heap.Props
import Verif.Lock.Props
import Verif.Wal.Props
import Verif.Recover.Props
import Verif.Exec.Props
import Verif.Query.Props
import Verif.Query.PropsAgg
import Verif.Query.PropsLogic
import Verif.Query.PropsCompare
import Verif.Query.PropsPath
import Verif.Seq.Props
import Verif.Net.PropsHttp
import Verif.Net.PropsTable
import Verif.Net.PropsAuth
import Verif.Net.PropsUri
import Verif.Compile.Props
import Verif.Compile.PropsScan
import Verif.Compile.PropsOps
import Verif.Func.PropsChoose
import Verif.Catalog.PropsDdl
import Verif.Catalog.PropsFile
import Verif.Query.PropsSelect
import Verif.Output.Props
import Verif.Insert.Props
import Verif.Dml.Props
import Verif.Import.Props
import Verif.Bus.Props
import Verif.Timer.Props
import Verif.Backup.Props
import Verif.Cli.Props
import Verif.Crc.Props
import Verif.Config.Props
import Verif.Object.PropsFile
import Verif.Coro.Props
import Verif.ServiceLock.Props
import Verif.Buf.PropsMgr
