import Verif.Buffer.Field
import Verif.Buffer.FieldCalls
import Verif.Buffer.FieldIndex
import Verif.Buffer.FieldProps
import Verif.Buffer.FieldReads
import Verif.Buffer.FieldReceived
import Verif.Buffer.FieldRep
import Verif.Buffer.FieldScan
import Verif.Buffer.FieldSpec
import Verif.Buffer.FieldValue
import Verif.Buffer.FieldWalk
import Verif.Buffer.Order
import Verif.Buffer.OrderProps
import Verif.Buffer.Pool
import Verif.Buffer.PoolLemmas
import Verif.Buffer.PoolProps
import Verif.Call.Deadline
import Verif.Call.Props
import Verif.Callback.Model
import Verif.Callback.Props
import Verif.Chrono.Model
import Verif.Chrono.Props
import Verif.Code.Props
import Verif.ConfModel.Alias
import Verif.ConfModel.AliasProps
import Verif.ConfModel.Group
import Verif.ConfModel.GroupProps
import Verif.ConfModel.Keyed
import Verif.ConfModel.Model
import Verif.ConfModel.More
import Verif.ConfModel.NormProps
import Verif.ConfModel.Range
import Verif.ConfModel.SetLaws
import Verif.ConfModel.SetProps
import Verif.ConfModel.User
import Verif.ConfModel.UserProps
import Verif.Config.Change
import Verif.Config.ChangeProps
import Verif.Conv.Count
import Verif.Conv.Desc
import Verif.Conv.Examples
import Verif.Conv.Flow
import Verif.Conv.Home
import Verif.Conv.Live
import Verif.Conv.Loc
import Verif.Conv.Model
import Verif.Conv.Move
import Verif.Conv.New
import Verif.Conv.Props
import Verif.Conv.Refute
import Verif.Conv.Sound
import Verif.Conv.Trans
import Verif.Conv.Turn
import Verif.DManager.Boot
import Verif.DManager.BootDone
import Verif.DManager.BootDoneProps
import Verif.DManager.BootProps
import Verif.DManager.BootSpec
import Verif.DManager.Connect
import Verif.DManager.ConnectProps
import Verif.DManager.ConnectSpec
import Verif.DManager.Demo
import Verif.DManager.Down
import Verif.DManager.DownProps
import Verif.DManager.DownSpec
import Verif.DManager.Frame
import Verif.DManager.Model
import Verif.DManager.NoSpawn
import Verif.DManager.Order
import Verif.DManager.OrderProps
import Verif.DManager.OrderSpec
import Verif.DManager.Pids
import Verif.DManager.PidsSpec
import Verif.DManager.RestartProps
import Verif.DManager.ScaleProps
import Verif.DManager.Stage
import Verif.DManager.Stop
import Verif.DManager.StopProps
import Verif.DPost.Boot
import Verif.DPost.Lands
import Verif.DPost.Model
import Verif.DPost.Props
import Verif.DPost.Puts
import Verif.DPost.Refute
import Verif.DPost.Seen
import Verif.DPost.Settles
import Verif.DPost.Steps
import Verif.DPost.View
import Verif.Data.HexProps
import Verif.Data.XidArchiveProps
import Verif.Discovery.Balance
import Verif.Discovery.Content
import Verif.Discovery.Full
import Verif.Discovery.Grow
import Verif.Discovery.Missing
import Verif.Discovery.Model
import Verif.Discovery.Proper
import Verif.Discovery.Props
import Verif.Discovery.Prov
import Verif.Discovery.Sorted
import Verif.Discovery.Spec
import Verif.Discovery.SpecMissing
import Verif.Discovery.SpecTopology
import Verif.Discovery.Things
import Verif.Discovery.Topo
import Verif.Discovery.TopoProps
import Verif.Discovery.Waits
import Verif.Env.Expand
import Verif.Env.ExpandProps
import Verif.FanOut.Props
import Verif.Forward.Cancel
import Verif.Forward.Going
import Verif.Forward.Props
import Verif.Forward.Props2
import Verif.Forward.Props3
import Verif.GConf.Coord
import Verif.GConf.Ended
import Verif.GConf.Model
import Verif.GConf.Program
import Verif.GConf.Props
import Verif.GConf.Refuted
import Verif.GConf.Restart
import Verif.GConf.Updated
import Verif.Gateway.InProps
import Verif.Gateway.InProps2
import Verif.Gateway.OutProps
import Verif.Gateway.OutProps2
import Verif.Http.Count
import Verif.Http.Flow
import Verif.Http.In
import Verif.Http.InProps
import Verif.Http.Out
import Verif.Http.OutProps
import Verif.Http.Text
import Verif.Http.TextProps
import Verif.Ipc.Examples
import Verif.QManager.Account
import Verif.QManager.Conform
import Verif.QManager.Frame
import Verif.QManager.Jobs
import Verif.QManager.Life
import Verif.QManager.LifeSpec
import Verif.QManager.LookupInv
import Verif.QManager.Model
import Verif.QManager.Props
import Verif.QManager.Props2
import Verif.QManager.Props3
import Verif.QManager.Ready
import Verif.QManager.RegInv
import Verif.QManager.RegStep
import Verif.QManager.Registry
import Verif.QManager.Spec
import Verif.QManager.Stops
import Verif.Queue.ConfProps
import Verif.Queue.GroupProps
import Verif.Queue.Props
import Verif.SConf.Maps
import Verif.SConf.Model
import Verif.SConf.Props
import Verif.SConf.Update
import Verif.SForward.Model
import Verif.SForward.Props
import Verif.SForward.Props2
import Verif.Service.Props2
import Verif.Service.Props3
import Verif.TConf.Alias
import Verif.TConf.Base
import Verif.TConf.Coord
import Verif.TConf.Model
import Verif.TConf.Present
import Verif.TConf.Props
import Verif.TConf.Refuted
import Verif.TConf.Scaled
import Verif.TConf.Stops
import Verif.TM.Order
import Verif.TM.Props
import Verif.TM.Props2
import Verif.TM.Props3
import Verif.TM.Props4
import Verif.Task.Bound
import Verif.Task.Carry
import Verif.Task.Duty
import Verif.Task.Inv
import Verif.Task.Model
import Verif.Task.Props
import Verif.Task.Rel
import Verif.Task.Weigh
import Verif.Tx.Props4
