import Verif.Sched.Props
import Verif.Incr.Props
import Verif.Sort.Props
import Verif.Jobs.Props2
import Verif.Str.MatchProps
import Verif.Str.FolderProps
import Verif.Str.TokenProps
import Verif.Str.RelProps
import Verif.Str.NearProps
import Verif.Str.CleanProps
import Verif.Crc.Props
import Verif.Cont.HashProps
import Verif.Cont.ArrayProps
import Verif.Mem.SmallProps
import Verif.IO.StreamProps
import Verif.Db.Props
import Verif.IO.CompressProps
import Verif.Net.ProtocolProps
import Verif.Net.ManifestProps
import Verif.Server.LoadProps
import Verif.Server.SyncTheorems
import Verif.Unity.Theorems
import Verif.Bff.BoolTheorems
import Verif.Bff.InterpTheorems
import Verif.Bff.IsolationTheorems
import Verif.Bff.SubstTheorems
import Verif.Bff.CondTheorems
import Verif.Bff.LexTheorems
import Verif.Bff.BlockTheorems
import Verif.Bff.TextTheorems
import Verif.Mig.Props
import Verif.Cache.HitProps
import Verif.Incl.Props
import Verif.Light.Example
import Verif.Args.Example
import Verif.Dirs.Example
import Verif.Link.Example
import Verif.Bff.ValueTheorems
import Verif.Bff.UsingTheorems
import Verif.Decl.Example
import Verif.Compdb.Same
import Verif.Compdb.Source
import Verif.Cmd.Example
import Verif.Procs.Props
import Verif.Worker.Props
import Verif.Sln.Example
import Verif.Ide.Props
import Verif.Vcx.Example
import Verif.Broker.Example
import Verif.Usage.Example
import Verif.Pool.Example
import Verif.Copy.Example
import Verif.AStr.Example
import Verif.Client.Example
import Verif.StrFind.Example
import Verif.Proc.Example
import Verif.Transfer.Example
import Verif.CompInfo.Example
import Verif.Family.Example
import Verif.Stats.Example
import Verif.Xcode.Example
import Verif.Settings.EnvExample
import Verif.Settings.GroupProps
import Verif.Profile.Props
import Verif.JobMem.Props
import Verif.Report.LibsProps
import Verif.Report.JsonProps
import Verif.Bff.NamesTheorems
import Verif.Bff.NamesUsing
import Verif.Bff.PrintTheorems
import Verif.Report.InclProps
import Verif.Report.Sorting
import Verif.Monitor.Props
import Verif.Ext.Props
import Verif.Progress.Props
import Verif.Clean.Props
import Verif.Fixup.Props
