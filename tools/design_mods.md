## 4. What is modelled and what is not

| directory | code modelled | not modelled / assumed |
|-----------|---------------|------------------------|
| `Cksum` | `src/ofp_in_cksum.c` (buffer, IP header, packet, transport checksums), the TTL update of `src/ofp_pkt_processing.c` | ODP segment layout is a list of byte lists |
| `Radix` | `src/ofp_rt_lookup.c` IPv4 and IPv6 tries, `ofp_set_route_msg` table choice | physical node identity; locks |
| `Mtrie` | `src/ofp_rt_mtrie_lookup.c` IPv4 part (default build) | the tree of rules is a map (justified by `Avl`: `sim_add`, `sim_remove`, `sim_search`); locks |
| `Arp` | `src/ofp_arp.c` and the ARP half of `src/ofp_route.c` add/delete, saved packets, ageing | MAC contents, hash function (parameter) |
| `Reass` | `src/ofp_reass.c` | freeing of packet buffers, ICMP error on timeout |
| `Frag` | `ofp_fragment_pkt` of `src/ofp_pkt_processing.c` | allocation failure |
| `Timer` | long-timer wheel of `src/ofp_timer.c` | ODP timers below 10 s |
| `Epoll` | `src/ofp_epoll.c`, `ofp_select` scan | concurrent calls on one object |
| `Sockbuf` | `src/ofp_uipc_sockbuf.c`, receive loops of `src/ofp_uipc_socket.c` | event callback, `sb_mbcnt` |
| `Tcp` | `include/ofpi_tcp_seq.h`, `src/ofp_tcp_reass.c`, text processing of `src/ofp_tcp_input.c` | urgent data, timers, congestion control |
| `Sack` | `src/ofp_tcp_sack.c` (both sides), its call sites in `src/ofp_tcp_input.c`, `src/ofp_tcp_output.c` | statistics; the global hole limit is an oracle |
| `Ipsec` | `src/ofp_ipsec_spd.c`, policy part of `src/ofp_ipsec.c`, `src/ofp_ipsec_common`-level selector check | life of SAs (see the module's comment) |
| `Uma` | `src/ofp_uma.c` | ODP pools by contract |
| `Util` | `src/ofp_util.c`, hexadecimal parser of the CLI | `atoi` overflow |
| `Tcpopt` | `ofp_tcp_addoptions` (`src/ofp_tcp_output.c`), `tcp_dooptions` (`src/ofp_tcp_input.c`) | filling of the MD5 digest (not compiled in) |
| `Pcb` | `src/ofp_in_pcb.c` (lookups, bind, connect, port search, chains), their callers in `src/ofp_udp_usrreq.c`, `src/ofp_tcp_usrreq.c`, `src/ofp_tcp_syncache.c` | locks and reference counts; hash functions are parameters; IPv6 conflict rules; route lookup and source address choice by contract |
| `Fwd` | `src/ofp_pkt_processing.c` (IPv4 input, forwarding, output), `src/ofp_icmp.c` | tables, hooks, transports as oracles; VXLAN/GRE bodies; `ip_hl < 5`; segmented buffers; redirects |
| `Snd` | `src/ofp_tcp_output.c` (all passes), sender and state-machine side of `ofp_tcp_do_segment`, `tcp_usr_send`, `tcp_usrclosed`, rexmt/persist/delack/path-MTU handlers | option contents, congestion control and RTT (inputs), SACK scoreboard (input, see `Sack`), receive buffer (input, see `Tcp`), keep-alive, urgent pointer value, IPv6 |
| `Sock` | socket pool, listen queues, `ofp_socket`/`ofp_listen`/`ofp_accept`/`ofp_close` (`src/ofp_syscalls.c`, `src/ofp_uipc_socket.c`), reference handling of `src/ofp_tcp_usrreq.c`, `src/ofp_tcp_subr.c`, `src/ofp_tcp_timewait.c`, `syncache_socket` | buffers, sleeping, accept filters; protocol events come at any time |
| `Sleep` | `ofp_msleep`, `_ofp_wakeup`, `ofp_wakeup`, `ofp_wakeup_one`, `sleep_timeout` (`src/ofp_uipc_socket.c`), waiting loops of `ofp_accept`, `ofp_sbwait`, `ofp_select`, `ofp_epoll_wait`, `ofp_sowakeup` | failing timers; `so_error` in `ofp_accept`; one listening socket or buffer at a time |
| `Syncache` | `src/ofp_tcp_syncache.c` for IPv4 (all functions compiled in) | statistics, IPv6, IP options, the compiled-out timer; the digest is a function parameter; `ofp_sonewconn` and pcb work are one input (see `Sock`) |
| `Sad` | `src/ofp_ipsec_sad.c` except the translation of parameters for ODP and lookup by ODP handle; SA part of `src/ofp_ipsec.c` (destroy, completion event, flush, bind) | ODP's answers are inputs; critical sections are atomic |
| `Udp` | `ofp_udp_input`, `udp_append`, `udp_output`, `ofp_in_broadcast`, close (`src/ofp_udp_usrreq.c`), `ofp_sosend_dgram`, `ofp_soreceive_dgram` (`src/ofp_uipc_socket.c`), checksum insertion (`src/ofp_pkt_processing.c`), over the tables of `Pcb` | hooks, VXLAN, IPv6, control messages, waiting; one segment; multicast filters are parameters |
| `Avl` | `src/ofp_avl.c` except printing, verification, `avl_tree_new/free` and the high ends of spans; the rule table of `src/ofp_rt_mtrie_lookup.c` on top of it | locks (calls are atomic), the free list (a count), the unread `height` counter; rule key fields are part of the stored key |
| `Verif/Md5` | `src/ofp_md5c.c` (all), `ofp_tcp_new_isn` of `src/ofp_tcp_subr.c` | wiping of a local array |
| `Verif/Burst` | `src/ofp_pkt_send_burst.c` (all) | allocation failure, statistics, alignment of the table |
| `Rto` | `tcp_xmit_timer` and measurements (`src/ofp_tcp_input.c`), timing part of `ofp_tcp_timer_rexmt`, `ofp_tcp_timer_persist`, `ofp_tcp_timer_keep`, `ofp_tcp_timer_activate` (`src/ofp_tcp_timer.c`), `ofp_tcp_setpersist`, keep-alive options, all writes to the congestion window | signed overflow wraps; 2MSL timer; races between timers and cancellation; timers run out when due (served at any later time) |
| `Callout` | `callout_*` of `include/ofpi_callout.h`, short timers of `src/ofp_timer.c`, the heads of the timer functions in `src/ofp_tcp_timer.c` | `OFP_RSS` queues; the pool of timeout events separately from the pool of timers |
| `Tw` | `src/ofp_tcp_timewait.c` (all but header construction), `tcp_detach`, `tcp_usr_close`, `ofp_tcp_timer_2msl` | `nolocaltimewait` (no effect in the source), failures of packet allocation for answers |
| `Mcast` | `src/ofp_in_mcast.c`: all calls that change memberships or filters, the input filter, the merge into the group record, reference counts | parsing of option structures and interface lookup (done by the caller), getters, reports of IGMP themselves (only what they do to the record), growth of the arrays beyond the limit of 4095 |
| `Ip6` | `ofp_ipv6_processing`, `ipv6_transport_classifier`, `ofp_ip6_output` (`src/ofp_pkt_processing.c`), `src/ofp_icmp6.c` (input, error, reflect, notification), `src/ofp_nd6.c`, IPv6 part of `src/ofp_route.c`, `src/ofp_in6_cksum.c`, protocol table | UDP, TCP and GRE input, hooks, slow path, interfaces: oracles; one segment per packet; calls atomic; VRFs (ignored by the code), VXLAN |
| `Ifcfg` | IPv4 part of `ofp_config_interface_up_v4/add_ip_v4/del_ip_v4/up_local/down`, interface records, address lists and look-ups of `src/ofp_portconf.c`; `add_route`, `del_route` of `src/ofp_route.c` | GRE and VXLAN interfaces, IPv6 addresses, broadcast addresses, ARP references, slow path commands, exhaustion of the routing table, concurrent configuration |
| `Vxlan` | MAC table and encapsulation of `src/ofp_vxlan.c`, `src/ofp_gre.c`, tags in `ofp_send_frame` | VXLAN ARP of the tunnel, receive hooks, slow path, multi-segment packets; relaxed memory order (sequential consistency assumed); `ofp_ip_output_recurse` after encapsulation |
| `Pcb6` | `src/ofp_in6_pcb.c` (look-ups, bind, connect, disconnect, port choice), the address part of `udp6_*` (`src/ofp_udp6_usrreq.c`) and `tcp6_usr_bind/listen/connect` (`src/ofp_tcp_usrreq.c`), `syncache_socket` for IPv6 | scopes, flow labels, credentials, `ofp_in6_pcbnotify`, peers whose address ends in 32 zero bits, mapped addresses on stream sockets |
| `Igmp` | `igmp_v3_enqueue_group_record`, `igmp_v3_enqueue_filter_change`, the host state machine (`igmp_input_v*_query`, `_report`, `igmp_change_state`, `igmp_initial_join`, `igmp_final_leave`, `ofp_igmp_fasttimo` and what they call), `ofp_igmp_input` (`src/ofp_igmp.c`) | failures to allocate or to extend a packet; multi-segment packets; in the state machine: source-specific memberships, detaching of links, `IGIF_LOOPBACK`; other links (they share only flags) |
| `Sysctl` | `ofp_sysctl`, `ofp_sysctl_add_oid`, `sysctl_register_oid`, `name2oid`, `ofp_sysctl_find_oid`, `sysctl_root`, the handlers of numbers, strings, structures and times (`src/ofp_sysctl.c`) | handlers of other modules (`PROC`), `sysctl.name`, `sysctl.next`, `sysctl.oidfmt`, `sysctl.oiddescr`; contexts, removal and renaming of entries; the lock is given up while a handler runs |
| `Sockopt` | `ofp_setsockopt`, `ofp_getsockopt`, `ofp_sosetopt`, `ofp_sogetopt`, `ofp_tcp_ctloutput`, `ofp_udp_ctloutput`, the dispatch of `ofp_ip_ctloutput`, `ofp_sbreserve_locked`, `ofp_soreserve`, the options in `sonewconn` | multicast options (`Mcast`), what the options do elsewhere; calls on one socket are atomic; values of `bool`-like options as one `int` |
| `Cli` | `add_command`, `parse`, `find_next_*`, `int_ok`, `topname_ok`, `octet_ok`, `ip4addr_ok`, `ip4addr_get`, `ip6addr_ok`, `ofp_ip6addr_get`, `cli_read` (`src/cli/ofp_cli.c`); `f_alias_set`, `f_run_alias` (`src/cli/ofp_cli_alias.c`) | the functions of the other commands; names of aliases that are empty or spelt like a kind of parameter; the other checks of parameters (any function); what is sent to the client; the password; lines of more than 49 words; the buffer of 100 in `ip4addr_ok` |
| `Stat` | `ofp_perf_tmo`, `ofp_set_stat_flags` (`src/ofp_stat.c`) | latencies; the pointer to shared memory; calls are atomic; only the sum of the counters is taken modulo 2^64 |
