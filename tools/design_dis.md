## 5. Disagreements between the code and the properties

Each is proved on a concrete execution of the model; the theorem names are in the table of section 3.
The short forms:

* **Packet checksum (C03)**: with an offset beyond the first segment the segment pointer is not advanced.
* **IPv6 routing (C10, C11)**: a /128 prefix reads (and on insertion branches on) bit 128, past the address.
* **mtrie (C12, C13)**: default route, dangling tables after a delete, stale entries, failed additions that leave
  traces, crash on delete, leaks, 16-bit counters.
* **ARP (C15, C17, C51, C52)**: races between lookup and insertion; waiting packets are sent in reverse order, leaked on
  timeout and kept for ever when a route refers to the entry; manual entries can be removed.
* **Reassembly (C19-C21, C44-C47)**: the VRF is not part of the key; counters drift after timeouts; overlaps.
* **Fragmentation (C22-C24)**: non-termination for an MTU below header + 8; options.
* **Timers (C25, C26)**, **epoll (C27, C28)**, **select (C42)**: see the witnesses.
* **TCP receive path (C30)**: Ethernet padding enters the stream; FIN outside the window; a full 63-slot buffer
  drops acknowledged data.
* **SACK report (C61)**: overlap with queued data makes the report miss the tail of the segment.
* **IPsec (C36, C53-C56)**: iteration past two destroyed policies, double destroy, ANY address, ICMP selector bytes,
  DISCARD/BYPASS with bound SAs.
* **Memory zones (C40)**: zone index 32 accepted; allocation from a destroyed zone.
* **Sockets (C67, C68, C70, C72)**: IPv6-only sockets take IPv4 packets; `SO_REUSEPORT` never has an effect; `sendto`
  binds another address than it checked; two datagram sockets can get the same connection; disconnecting forgets
  the bound address.
* **IPv4 input (C75, C77-C79, C81, C82)**: pings and ICMP errors without a route back and datagrams to closed ports lose
  their buffer; a source of 0.0.0.0 is replaced without a new checksum; multicast sources are answered; ICMP errors
  copy the more-fragments flag, read the length in the wrong byte order and quote memory behind short packets; a
  short timestamp request is written beyond its end; 255.255.255.255 is forwarded.
* **TCP sender (C84, C86, C87, C89, C92, C93)**: with SACK, a pass that finds a hole and no room for it sends bytes from
  the wrong offset; a FIN sent as window probe moves `snd_nxt` below `snd_una`, after which uninitialised memory is sent;
  a byte written before the handshake completes is overtaken by the FIN; `snd_wnd` wraps below zero; the output loop
  never ends while the packet pool is empty or the route is gone (error returns are compiled out); a pure ACK or an
  empty pool leaves unsent data without any timer; an acknowledgement that finds no packet is forgotten.
* **Sockets (C95, C99)**: an `ofp_accept` that fails after taking a connection from the queue loses socket and control block
  for ever; closing a descriptor that is not open follows a null pointer (no `EBADF`).
* **Sleeping (C102, C103)**: a timeout wakes the last sleeper on its channel, not its owner (all of select and epoll share
  one channel); select and epoll check and sleep without a lock; data wakes them only if some thread ever blocked in a
  receive call on that buffer; disconnecting a listening socket can miss a thread in `ofp_accept`.
* **Half-open connections (C104-C106, C108, C109)**: without cookies every initial sequence number is 31415; with cookies the
  secrets are all zero at first, one of them until the second reseeding; a cookie of any age is revived by the next SYN
  of its bucket; cookies lose window scaling and small MSS values; any wrong ACK removes the entry it names; entries never
  time out; two SYNs at once make two entries; the VRF is not compared.
* C110: iterating past two destroyed SAs hands out a freed object (`sa_lifetime_violated`); C112: a destruction that failed in
  ODP can never be repeated (`failed_destroy_violated`), or leaks the object (`leak_violated`); C114: `ofp_ipsec_sp_bind` takes
  its reference after publishing the SA, so another thread can free it (`bind_race_violated`).
* **Datagram sockets (C117, C119, C120)**: the UDP length field is believed, so `ofp_recvfrom` returns memory behind the packet
  (longer than the packet, or below 8); the length test counts the Ethernet header, so ports may come from memory behind the
  packet; VRFs are never compared; a failed copy, a member without the sharing option, or a broadcast to a subnet deprive members.
* `avl_delete` of a key that is absent and greater than its last neighbour raises that node's rank although nothing was deducted; `avl_insert` does not undo the ranks when no node is left. Both corrupt access by position (`index_after_miss_violated`, `index_after_full_violated`); a range walk then follows a null pointer. `avl_iterate_index_range` with an empty range at the end follows a null pointer, too.
* `ofp_MD5Update`: `i + 63 < inputLen` wraps for inputs within 63 bytes of 4 GB; the loop then reads on beyond the input (`long_input_violated`).
* `ofp_tcp_new_isn`: the "secret" is the tick count of the first connection, the reading of random data being commented out (`isn_secret_violated`); a first connection during tick 0 leaves `isn_last_reseed` 0, so the next connection draws another secret and its number may be behind (`isn_first_tick_violated`).
* **TCP timers (C132-C138)**: after the fourth timeout in a row the next wait can be half as long (`backoff_violated`); without timestamps thirteen segments needing one retransmission each end a connection although all were acknowledged (`progress_dropped_violated`); every keep-alive time is cut to one minute, the probe count is ignored, very long idle times end the connection at once (`keepidle_violated`, `keepcnt_violated`, `keepidle_large_violated`); after 248 days of running, connections in use are dropped (`uptime_violated`); a single lost probe can end a connection with a closed window (`persist_single_loss_violated`); there is no congestion control (`timeout_no_reduction_violated`).
* **Connection timers (C140, C141)**: `callout_pending` is constantly 0, so a timer event already queued when the timer is set anew runs the function before the new time (`early_run_violated`); the handle a callout keeps after running may belong to another connection's timer, which is then cancelled instead and lost; with an empty pool the callout is marked active although nothing will run it.
* **TIME_WAIT (C142, C144)**: changing `net.inet.tcp.msl` reorders deadlines so entries stay too long or leave too early; `net.inet.tcp.maxtcptw` has no effect; with fewer than five TCP control blocks no entry exists at all; a bare ACK with the expected numbers is answered (the test `tlen == 0` at src/ofp_tcp_timewait.c:340 is inverted), so two ends in TIME_WAIT answer each other without end.
* `ofp_imo_multi_filter` (`src/ofp_in_mcast.c:457-460`) compares the state of the source with the mode of the filter: a source *blocked* in EXCLUDE mode is passed (C147).
* `inp_set_source_filters` skips the replacement if the list is empty (`src/ofp_in_mcast.c:2590-2629`): the old sources stay, in the new mode (C149); `imf_get_source` counts the old sources against the limit (C149).
* `inm_merge` undoes a failed merge starting from `nims`, which is not set (`src/ofp_in_mcast.c:1020-1033`); the 513th source of a group is such a failure (C150).
* `inp_join_group` leaves `IN_MULTI_LOCK` held if IGMP returns an error (`src/ofp_in_mcast.c:2170-2195`, both `goto`s; C152).
* `ofp_in_pcbfree` does not give up memberships (call commented out, `src/ofp_in_pcb.c:1042-1045`; C151).
* `inm_merge` decrements `iss_in` again when an empty INCLUDE membership is left, and does not increment it when such a membership gets a source again (`src/ofp_in_mcast.c:1046-1078`; C153).
* IPv6 extension headers: `ofp_icmp6_error` frees the packet and the classifier returns DROP, so it is freed again (C155); echo replies and next header 59 return PROCESSED without anyone owning the packet (C155).
* Neighbour discovery checks no hop limit, no target, no option type or length (`src/ofp_nd6.c`; C158, C159, C162); the Ethernet address of a gateway is stored at a host route for the gateway, never at the routes through it (C157).
* `ofp_ipv6_processing` compares only the last 8 bytes with the link-local address (C160) and never touches the hop limit (C161).
* `ofp_ip6_protox[]` has 256 entries and is indexed with `nxt` returned by the protocol, which is `OFP_IPPROTO_DONE` = 257 (C162).
* `ofp_icmp6_reflect` takes the source address of the outgoing interface although the request was for another address (C163).
* Waiting IPv6 packets are never timed out: 2048 to silent neighbours block resolution for ever (C165).
* Interface configuration (C166–C174): eight addresses on an interface make all of them irremovable (`ofp_ifnet_ip_remove` does nothing on a full list); prefix length 32 on a port overwrites the local host route; two addresses in a subnet share one route that goes with the first of them; `ofp_config_interface_up_v4` on a VLAN interface without address deletes 0.0.0.0/0; a refused `add_ip` deletes the routes of the owner of the address; `up_v4` ignores whether the address was stored; secondary addresses cannot be bound; `ofp_get_create_ifnet` writes to NULL when no VLAN record is free; `ofp_get_ifnet_match` with VLAN ignores the VRF; `ofp_delete_ifnet` leaves a freed record on the list of `bind`.
* Tunnels (C175–C186): `ofp_vxlan_set_mac_dst` does not reset `old_key`, so a MAC address whose home slot is taken is never learned; entries live two hours instead of one (the age is added twice); the 32-bit tick counter wraps; the all-zero MAC address is the mark of a free slot; the key is visible before the address; the VNI is truncated to 16 bits, network 0 and frames without VNI flag are taken; GRE flags are tested in the wrong byte order and its header is read at offset 20 even with IP options; on VLAN interfaces the destination MAC address of the rebuilt header is overwritten by the source; length fields wrap; a doubly tagged frame leaves an untagged interface with a tag.
* IPv6 sockets (C187–C194): `ofp_in_pcblookup_hash_locked` accepts blocks without `INP_IPV4` as last resort, so an IPv6-only socket gets IPv4 packets; `ofp_in6_pcbbind` clears `sin6_port` of the caller before using its own copy; `udp6_bind`/`udp6_connect` change `inp_vflag` before the call that may fail; `udp6_disconnect` ignores the result of the IPv4 disconnect, which clears only the last word of the peer.
* IGMPv3 reports (C195–C200): to take back an unused record header `igmp_v3_enqueue_filter_change` calls `odp_packet_pull_head` instead of shortening the packet, so a change of one kind is sent without its record header; `vt_nrecs` is not set there; the room in an existing packet is computed without `IGMP_LEADINGSPACE`; EXCLUDE lists are split; empty records are sent when the rest of the tree is not in the mode of the group.
* IGMP: `ofp_igmp_slowtimo` is never called, so a host never leaves the compatibility modes (C206); a query of version 2
  only makes a SLEEPING member AWAKENING, without timer (C201); a group left and joined again is stuck as NOT_MEMBER (C208);
  `IGMP_MANT` lacks the implied bit (C209); `ofp_igmp_input` takes `ip_len` for the length of the message (C210, C212), reads
  version 3 messages at `odp_packet_data + iphlen` (C211), and its first check frees the packet and has the caller free it
  again.
* **C213, C217, C218** (sysctl). Entries with equal numbers are accepted, and the name of the second then leads to the
  first; the length of a new string is compared as an `int`; `hz` is `unsigned long`, so every negative time is taken for
  a very long one.
* **C219, C221–C225, C227** (socket options). Four options can be set and not read; a time to linger is cut to `short`;
  a timeout is read without its microseconds and waited for modulo 2^32 microseconds; a short `OFP_SO_SETFIB` fails and
  sets VRF 0; TCP sockets accept every option they do not know; options of level UDP leave the lock of the socket held;
  accepted sockets adjust a buffer size that was set.
* **C228–C232, C234–C237** (command line). Words behind a complete command are ignored; a placeholder typed as shown is
  accepted, without a parameter; a command or alias that another begins with stops the program; parameters of 99
  characters or more overrun a buffer of 100; octets up to 999 and hexadecimal ones are accepted; `::` with seven groups is
  refused and two `::` are accepted; completion overruns the line of 200 and puts the rest of placeholders into it; the
  key for later lines first goes back; telnet commands of two bytes swallow a character; the delete key types `~`.
* **C238–C240** (aliases). An alias named like the beginning of another changes that one, and a line that begins with the
  name of an alias runs it even if it names a longer one; an alias of an alias is carried out with the next line; an
  empty command for an alias stops the program.
* **C241–C243** (packet rate). Threads whose number is not below the number of threads are not counted; switching the flag
  off and on starts a second timer for good, and two timers at the same time divide by zero.

## 6. Axioms

No axiom is declared. `#print axioms` over every theorem of MANIFEST.json gives a subset of
`propext, Classical.choice, Quot.sound`. No compiled evaluation is used anywhere.

## 7. Wrong programs

`seeded/LOG.jsonl` has one line per seeded bug: a definition of the model was edited in a scratch copy as a realistic
bug would change the C code, the project was rebuilt, and the theorems that failed were recorded. Survivors led to
stronger theorems (field `tightened`) or turned out to be equivalent programs.
