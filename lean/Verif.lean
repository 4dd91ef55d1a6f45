import Verif.RingBuffer.Props
import Verif.IoBuf.Props
import Verif.SegmentPool.Props
import Verif.Flit.Props
import Verif.Spsc.Props
import Verif.Mpmc.Props
import Verif.Mpsc.Props
import Verif.EventCount.Props
import Verif.BlockingCounter.Props
import Verif.Future.Props
import Verif.SharedMutex.Props
import Verif.Histogram.Props
import Verif.Arena.Props
import Verif.Io.Props
import Verif.Url.Props
import Verif.Text.IniProps
import Verif.Lines.Props
import Verif.Proc.Props
import Verif.Sliding.Props
import Verif.Human.Props
import Verif.Posix.Props
import Verif.Cloud.Props
import Verif.Channel.Props
import Verif.FiberQueue.Props
import Verif.Sync.Props
import Verif.Barrier.Props
import Verif.Join.Props
import Verif.Proactor.Props
import Verif.OnIdle.Props
import Verif.Completion.Props
import Verif.BufRing.Props
import Verif.DirectFd.Props
import Verif.Sched.Props
import Verif.PodArray.Props
import Verif.Resp.Props
import Verif.Cuckoo.Props
import Verif.EpollSock.Props
import Verif.Tls.Props
import Verif.RWSpin.Props
import Verif.UPoll.Props
import Verif.Listener.Props
import Verif.Periodic.Props
import Verif.FQPool.Props
import Verif.FiberFile.Props
import Verif.Metrics.Props
import Verif.Pool.Props
import Verif.Http.Props
import Verif.Dns.Props
import Verif.Accept.Props
import Verif.USock.Props
import Verif.HttpSrv.Props
import Verif.Sso.Props
import Verif.Divide.Props
import Verif.RelAcq.Lemmas
import Verif.WakeRA.Props
import Verif.SpscRA.Props
import Verif.MpmcRA.Props
import Verif.MpscRA.Props
import Verif.RWSpinRA.Props
import Verif.SharedRA.Props
import Verif.BlockRA.Props
import Verif.JoinRA.Props
import Verif.RefRA.Props
import Verif.FutRA.Props
import Verif.ECRA.Props
import Verif.S3File.Props
import Verif.CloudRead.Props
import Verif.CloudUrl.Props
import Verif.FileLog.Props
import Verif.Zstd.Props
import Verif.Varz.Props
import Verif.CloudSign.Props
import Verif.CloudList.Props
import Verif.AwsRefresh.Props
import Verif.AzureCreds.Props
import Verif.Channel.Many
import Verif.Random.Props
import Verif.Cycle.Props
import Verif.Sqe.Props
import Verif.Hash.Props
import Verif.Init.Props
import Verif.Subs.Props
import Verif.Signals.Props
import Verif.Iter.Props
import Verif.TaskQ.Props
import Verif.TlsHand.Props
import Verif.VarzAvg.Props
import Verif.SockBase.Props
import Verif.Hooks.Props
import Verif.SchedCount.Props
import Verif.FiberHandle.Props
import Verif.Zipf.Props
import Verif.AwsHttp.Props
import Verif.Share.Props
import Verif.Kernel.Props
import Verif.AwsConf.Props
import Verif.Profilez.Props
import Verif.RegBuf.Props
import Verif.ProgName.Props
import Verif.RecvHook.Props
import Verif.SwitchStat.Props
import Verif.Load.Props
import Verif.HumanNum.Props
import Verif.HtmlTable.Props
import Verif.Elapsed.Props
import Verif.OnStack.Props
