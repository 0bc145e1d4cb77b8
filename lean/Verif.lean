import Verif.Cksum.PropsPkt
import Verif.Radix.Props
import Verif.Radix.Props6
import Verif.Timer.Props
import Verif.Epoll.Props
import Verif.Epoll.Select
import Verif.Tcp.Seq
import Verif.Util.Props
import Verif.Reass.Props
import Verif.Frag.Props
import Verif.Sockbuf.Props
import Verif.Tcp.RcvViol
import Verif.Mtrie.Viol
import Verif.Arp.Route
import Verif.Ipsec.Flush
import Verif.Uma.Props
import Verif.Sack.Board
import Verif.Sack.RecvProps
import Verif.Tcpopt.Props
import Verif.Pcb.Props
import Verif.Fwd.Props
import Verif.Snd.Extra
import Verif.Sock.Props
import Verif.Sleep.MonProps
import Verif.Syncache.Ex
import Verif.Sad.Spec
import Verif.Sad.Model
import Verif.Sad.Inv
import Verif.Sad.Steps
import Verif.Sad.Props
import Verif.Sad.Flush
import Verif.Sad.Viol
import Verif.Udp.Recv
import Verif.Udp.Deliver
import Verif.Udp.Conserve
import Verif.Udp.Send
import Verif.Udp.Trip
import Verif.Udp.Hist
import Verif.Udp.Viol
import Verif.Avl.Hist
import Verif.Md5.Thm
import Verif.Md5.IsnThm
import Verif.Burst.Thm
import Verif.Rto.Thm
import Verif.Rto.Thm2
import Verif.Rto.KeepThm
import Verif.Rto.Cwnd
import Verif.Callout.Thm2
import Verif.Tw.Thm
import Verif.Tw.Thm2
import Verif.Tw.Fw2
import Verif.Mcast.Model
import Verif.Mcast.Spec
import Verif.Mcast.Thm
import Verif.Mcast.Thm2
import Verif.Mcast.Thm3
import Verif.Mcast.Thm4
import Verif.Mcast.Thm5
import Verif.Mcast.Thm6
import Verif.Ip6.Model
import Verif.Ip6.Spec
import Verif.Ip6.Lemmas
import Verif.Ip6.Own
import Verif.Ip6.Rx
import Verif.Ip6.Cksum6
import Verif.Ip6.Hist
import Verif.Ip6.World
import Verif.Ip6.PropsNd
import Verif.Ip6.Tidy
import Verif.Ip6.PropsRx
import Verif.Ifcfg.Viol
import Verif.Vxlan.Tab
import Verif.Vxlan.TabLemmas
import Verif.Vxlan.TabInv
import Verif.Vxlan.TabProps
import Verif.Vxlan.TabAge
import Verif.Vxlan.TabForget
import Verif.Vxlan.Conc
import Verif.Vxlan.ConcProps
import Verif.Vxlan.Encap
import Verif.Vxlan.EncapProps
import Verif.Vxlan.GreProps
import Verif.Pcb6.Props
import Verif.Pcb6.Witness
import Verif.Igmp.Change
import Verif.Igmp.HostChange
import Verif.Igmp.Input
import Verif.Sysctl.Values
import Verif.Igmp.HostGroup
import Verif.Sockopt.Props2
import Verif.Cli.Addr
import Verif.Cli.Edit
import Verif.Cli.More
import Verif.Cli.Alias
import Verif.Stat.Props
