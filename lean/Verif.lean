import Verif.Arena.Lemmas
import Verif.Arena.Lemmas2
import Verif.Arena.Model
import Verif.Arena.Props
import Verif.Arena.Spec
import Verif.Args.Lemmas
import Verif.Args.Model
import Verif.Args.Props
import Verif.Args.Spec
import Verif.Axioms
import Verif.Basic
import Verif.Chal.HandLemmas
import Verif.Chal.InvLemmas
import Verif.Chal.Model
import Verif.Chal.ParseLemmas
import Verif.Chal.Props
import Verif.Chal.Spec
import Verif.Chal.StepLemmas
import Verif.Chal.TblLemmas
import Verif.Conf.AddrProps
import Verif.Conf.ConfigSpec
import Verif.Conf.Lemmas
import Verif.Conf.ListenLemmas
import Verif.Conf.ListenSpec
import Verif.Conf.LoadProps
import Verif.Conf.Model
import Verif.Conf.OptLemmas
import Verif.Conf.Props
import Verif.Conf.Spec
import Verif.Conf.Types
import Verif.Connq.EventLemmas
import Verif.Connq.InvLemmas
import Verif.Connq.Model
import Verif.Connq.OpLemmas
import Verif.Connq.Props
import Verif.Connq.SegLemmas
import Verif.Connq.Spec
import Verif.Cookie.Model
import Verif.Cookie.Props
import Verif.Css.ConnLemmas
import Verif.Css.EffLemmas
import Verif.Css.GlobLemmas
import Verif.Css.LocLemmas
import Verif.Css.Model
import Verif.Css.MoreLemmas
import Verif.Css.Props
import Verif.Css.ReplyLemmas
import Verif.Css.ReqLemmas
import Verif.Css.RunLemmas
import Verif.Css.SafeLemmas
import Verif.Css.Spec
import Verif.Css.StepLemmas
import Verif.Ctl.AckLemmas
import Verif.Ctl.ActLemmas
import Verif.Ctl.ClientLemmas
import Verif.Ctl.ConvLemmas
import Verif.Ctl.Model
import Verif.Ctl.Props
import Verif.Ctl.Spec
import Verif.CtlArgs.Lemmas
import Verif.CtlArgs.Model
import Verif.CtlArgs.Props
import Verif.CtlArgs.Spec
import Verif.Dname.Lemmas
import Verif.Dname.Model
import Verif.Dname.Print
import Verif.Dname.Props
import Verif.Dname.Spec
import Verif.Dname.Unesc
import Verif.Dname.Zone
import Verif.Enc.Comp
import Verif.Enc.CompLemmas
import Verif.Enc.CompProps
import Verif.Enc.Data
import Verif.Enc.RecSpec
import Verif.Enc.Rr
import Verif.Enc.RrLemmas
import Verif.Enc.RrLemmas2
import Verif.Enc.Spec
import Verif.Enc.StoreLemmas
import Verif.Extmon.DaemonLemmas
import Verif.Extmon.DaemonModel
import Verif.Extmon.DaemonSpec
import Verif.Extmon.HelperLemmas
import Verif.Extmon.HelperLemmas2
import Verif.Extmon.HelperLemmas3
import Verif.Extmon.HelperModel
import Verif.Extmon.HelperSpec
import Verif.Extmon.Lemmas
import Verif.Extmon.Lemmas2
import Verif.Extmon.Model
import Verif.Extmon.Play
import Verif.Extmon.Props
import Verif.Extmon.Spec
import Verif.Frames.Model
import Verif.Frames.Props
import Verif.Frames.Spec
import Verif.Geo.Bits
import Verif.Geo.MergeLemmas
import Verif.Geo.Model
import Verif.Geo.NetsLemmas
import Verif.Geo.NlistLemmas
import Verif.Geo.Pfx
import Verif.Geo.Props
import Verif.Geo.ScopeLemmas
import Verif.Geo.SortLemmas
import Verif.Geo.Spec
import Verif.Geo.TreeLemmas
import Verif.Geo.TreeLookup
import Verif.Geo.WeakLemmas
import Verif.GeoTest.Lemmas
import Verif.GeoTest.Model
import Verif.GeoTest.Props
import Verif.GeoTest.Spec
import Verif.Gmap.InitLemmas
import Verif.Gmap.Lemmas
import Verif.Gmap.Lookup
import Verif.Gmap.Model
import Verif.Gmap.Props
import Verif.Gmap.RecLemmas
import Verif.Gmap.Spec
import Verif.Hand.Lemmas
import Verif.Hand.Model
import Verif.Hand.Props
import Verif.Hand.Spec
import Verif.Hand.Strict
import Verif.Life.Child
import Verif.Life.Daemon
import Verif.Life.Model
import Verif.Life.Props
import Verif.Life.Spec
import Verif.Load.AllLemmas
import Verif.Load.AnswerLemmas
import Verif.Load.ChainLemmas
import Verif.Load.DataLemmas
import Verif.Load.DbLemmas
import Verif.Load.FileLemmas
import Verif.Load.GlueLemmas
import Verif.Load.MergeAll
import Verif.Load.MergeLemmas
import Verif.Load.Model
import Verif.Load.NewZone
import Verif.Load.NodeLemmas
import Verif.Load.PathLemmas
import Verif.Load.PostLemmas
import Verif.Load.Props
import Verif.Load.ReplyLemmas
import Verif.Load.ReplySpec
import Verif.Load.RuleLemmas
import Verif.Load.SafeLemmas
import Verif.Load.ServeLemmas
import Verif.Load.SetLemmas
import Verif.Load.SizeLemmas
import Verif.Load.Spec
import Verif.Load.TreeLemmas
import Verif.Load.WalkLemmas
import Verif.Load.ZoneLemmas
import Verif.Lookup.ChainLemmas
import Verif.Lookup.ChaseLemmas
import Verif.Lookup.DyncLemmas
import Verif.Lookup.FinalLemmas
import Verif.Lookup.MainLemmas
import Verif.Lookup.Model
import Verif.Lookup.OwnLemmas
import Verif.Lookup.Props
import Verif.Lookup.Spec
import Verif.Loop.Lemmas
import Verif.Loop.Model
import Verif.Loop.Props
import Verif.Loop.Spec
import Verif.Loop.Steps
import Verif.Maps.AutoLemmas
import Verif.Maps.InvLemmas
import Verif.Maps.ListLemmas
import Verif.Maps.Model
import Verif.Maps.Props
import Verif.Maps.Spec
import Verif.Maps.StepLemmas
import Verif.Meta.AnswerLemmas
import Verif.Meta.AnswerProps
import Verif.Meta.AnswerSpec
import Verif.Meta.Lemmas
import Verif.Meta.Load
import Verif.Meta.Model
import Verif.Meta.Props
import Verif.Meta.Spec
import Verif.Mon.Bits
import Verif.Mon.Flap
import Verif.Mon.Lemmas
import Verif.Mon.Model
import Verif.Mon.Props
import Verif.Mon.Run
import Verif.Mon.Spec
import Verif.Mon.States
import Verif.Own.Heap
import Verif.Own.Loads
import Verif.Own.Model
import Verif.Own.Nodes
import Verif.Own.Props
import Verif.Own.Spec
import Verif.Own.Zones
import Verif.Packet.Count
import Verif.Packet.Decode
import Verif.Packet.DecodeLemmas
import Verif.Packet.Dso
import Verif.Packet.EdnsAnswer
import Verif.Packet.Lemmas
import Verif.Packet.Names
import Verif.Packet.OptOut
import Verif.Packet.Opts
import Verif.Packet.Process
import Verif.Packet.Props
import Verif.Packet.Respond
import Verif.Packet.RespondLemmas
import Verif.Packet.RespondProps
import Verif.Packet.Spec
import Verif.Plugins.Lemmas
import Verif.Plugins.Meta
import Verif.Plugins.Model
import Verif.Plugins.Props
import Verif.Plugins.Scale
import Verif.Plugins.Spec
import Verif.Plugins.Weighted
import Verif.Plugins.WeightedProps
import Verif.Poll.HttpLemmas
import Verif.Poll.Lemmas
import Verif.Poll.Model
import Verif.Poll.Props
import Verif.Poll.Spec
import Verif.Poll.TcpLemmas
import Verif.Proxy.Lemmas
import Verif.Proxy.Model
import Verif.Proxy.Props
import Verif.Proxy.Spec
import Verif.Rand.Lemmas
import Verif.Rand.Model
import Verif.Rand.Props
import Verif.Rand.Spec
import Verif.Rand.TtlProps
import Verif.Refs.Answers
import Verif.Refs.Lemmas
import Verif.Refs.Model
import Verif.Refs.Props
import Verif.Refs.Spec
import Verif.Refs.Stores
import Verif.Res.AnswerProps
import Verif.Res.AnswerSpec
import Verif.Res.Lemmas
import Verif.Res.Levels
import Verif.Res.MfLemmas
import Verif.Res.MfLoad
import Verif.Res.MfProps
import Verif.Res.MfView
import Verif.Res.Model
import Verif.Res.SfProps
import Verif.Res.Spec
import Verif.Server.Lemmas
import Verif.Server.Model
import Verif.Server.Props
import Verif.Server.Spec
import Verif.Sock.Lemmas
import Verif.Sock.Model
import Verif.Sock.Props
import Verif.Sock.Spec
import Verif.Statio.Lemmas
import Verif.Statio.Model
import Verif.Statio.Props
import Verif.Statio.Spec
import Verif.Stream.InvLemmas
import Verif.Stream.Model
import Verif.Stream.ParseLemmas
import Verif.Stream.Props
import Verif.Stream.Spec
import Verif.Svc.FileModel
import Verif.Svc.FileProps
import Verif.Svc.FileSpec
import Verif.Svc.Lemmas
import Verif.Svc.Model
import Verif.Svc.Props
import Verif.Svc.ReqLemmas
import Verif.Svc.ReqModel
import Verif.Svc.ReqProps
import Verif.Svc.ReqSpec
import Verif.Svc.Spec
import Verif.Take.BootLemmas
import Verif.Take.ImportLemmas
import Verif.Take.MainLemmas
import Verif.Take.Model
import Verif.Take.Props
import Verif.Take.Spec
import Verif.Take.TakeLemmas
import Verif.Take.WorksLemmas
import Verif.Threads.Inv
import Verif.Threads.Live
import Verif.Threads.Model
import Verif.Threads.Props
import Verif.Threads.Spec
import Verif.Tree.Lemmas
import Verif.Tree.Model
import Verif.Tree.Props
import Verif.Tree.Spec
import Verif.Tree.Table
import Verif.Tree.TableLemmas
import Verif.Tree.TableProps
import Verif.Tree.ZLemmas
import Verif.Udp.Lemmas
import Verif.Udp.Model
import Verif.Udp.Props
import Verif.Udp.Spec
import Verif.Udp.Stop
import Verif.Udp.StopProps
import Verif.Util.Model
import Verif.Util.Props
import Verif.Util.Rate
import Verif.Util.Spec
import Verif.Util.Subst
import Verif.Vscf.AcceptLemmas
import Verif.Vscf.Clone
import Verif.Vscf.CloneProps
import Verif.Vscf.CloneSpec
import Verif.Vscf.Conv
import Verif.Vscf.ConvLemmas
import Verif.Vscf.ConvProps
import Verif.Vscf.ConvSpec
import Verif.Vscf.FwdLemmas
import Verif.Vscf.IncLemmas
import Verif.Vscf.Model
import Verif.Vscf.PathLemmas
import Verif.Vscf.Props
import Verif.Vscf.RejectLemmas
import Verif.Vscf.SafeLemmas
import Verif.Vscf.Spec
import Verif.Vscf.StrLemmas
import Verif.Vscf.Table
import Verif.Vscf.TableLemmas
import Verif.Vscf.TableProps
import Verif.Vscf.TableSpec
import Verif.Vscf.WordLemmas
import Verif.Watch.Lemmas
import Verif.Watch.Model
import Verif.Watch.Props
import Verif.Watch.Spec
import Verif.Wt.AnswerLemmas
import Verif.Wt.AnswerProps
import Verif.Wt.AnswerSpec
import Verif.Wt.Lemmas
import Verif.Wt.Load
import Verif.Wt.Model
import Verif.Wt.Props
import Verif.Wt.Spec
import Verif.Wt.View
import Verif.Zscan.FieldLemmas
import Verif.Zscan.FileLemmas
import Verif.Zscan.Model
import Verif.Zscan.NameLemmas
import Verif.Zscan.OkLemmas
import Verif.Zscan.PreLemmas
import Verif.Zscan.Props
import Verif.Zscan.RecLemmas
import Verif.Zscan.SafeLemmas
import Verif.Zscan.Spec
import Verif.Zscan.TextLemmas
import Verif.Zscan.TokLemmas
