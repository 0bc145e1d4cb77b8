# Design: a Lean 4 model of OpenFastPath (ofp) and its properties

## 1. Method

`/repo` is read as text. Each C function in scope becomes a total Lean function (or a
`step : State → Op → State × Out`) with a comment citing the file and lines it models.
Properties are stated against small separate specifications (`*/Spec.lean`, or the "Specification"
section of a module) and proved in `*/Props.lean` and its siblings; helper lemmas live in `*/Lemmas.lean`.
Where the C code has undefined behaviour or loops forever, the model has a distinct outcome (`ub`,
`diverge`, `oob`, `none`, ...) instead of a made-up value.  If the code violates a property we do not
repair the model: we prove the negation on a concrete witness (theorem names ending in `_violated`),
and prove the strongest true restriction (suffix `_partial`).

Concrete witnesses and the non-vacuity examples are evaluated by the kernel (`decide +kernel`, `rfl`);
everything quantified is proved by induction, invariants or refinement, without bounds.

## 2. Trusted base

* Lean 4.33.0's kernel; axioms `propext`, `Classical.choice`, `Quot.sound` at most (section 6).
* The reading of the C code: every definition cites its source.  Nothing is extracted or executed.
* Common modelling conventions
  * Host is little-endian, `int` is 32 bits, pointers 64 bits (x86-64/aarch64, the supported targets).
  * Locks: each section of an API function that runs entirely under a lock is one atomic step.  Code that
    runs outside a lock is modelled sequentially, or, where the property is about races (ARP/routes), split
    into the steps between which other threads can run; the races hidden otherwise are listed in section 4.
  * ODP (packet allocation, pools, timers) is external: it appears as a parameter, an oracle or an abstract
    list of bytes / free list whose assumed behaviour is stated in the model's comment.
  * Pointer structures (lists, trees) are inductive values unless aliasing matters (mtrie, IPsec policies,
    ARP entries, memory zones), where an explicit index-based memory is used.

## 3. The properties, their theorems and the method of proof

Full statements are in `properties.jsonl`. The method per topic: see the paragraph after the table.

| id | property | status | theorems | remarks |
|----|----------|--------|----------|---------|
| C01 | Buffer checksum is the Internet checksum | partial | `Cksum.ofp_cksum_buffer_partial`, `Cksum.ofp_cksum_buffer_local`, `Cksum.ofp_cksum_buffer_violated` | Proved for every buffer up to 262143 bytes (every caller in the code base) at every alignment; the full claim for any length is false, with a 262152-byte witness. |
| C02 | IP header checksum is the Internet checksum | proved | `Cksum.ofp_cksum_iph_correct`, `Cksum.ofp_cksum_iph_fill_verifies`, `Cksum.ofp_cksum_iph_detects` | All header lengths 5..15 words, both alignments. |
| C03 | Packet checksum does not depend on segmentation | partial | `Cksum.ofp_cksum_partial`, `Cksum.ofp_cksum_offset_violated`, `Cksum.ofp_cksum_trailer_violated`, `Cksum.ofp_cksum_loop_violated` | True when the range starts in the first segment and ends inside it, at a segment boundary or at the packet end; false otherwise (three witnesses). |
| C04 | Forwarding keeps the header checksum valid | proved | `Cksum.forward_keeps_checksum_valid`, `Cksum.forward_then_verify` |  |
| C05 | IPv4 longest prefix match (radix tables) | proved | `Radix.lookup_is_lpm` |  |
| C06 | Failed route addition changes nothing | proved | `Radix.failed_add_changes_nothing` |  |
| C07 | Route table memory is conserved | proved | `Radix.nodes_conserved`, `Radix.nodes6_conserved`, `Radix.delete_result`, `Radix.destroy_exact` |  |
| C08 | Route listing is exact | proved | `Radix.listing_exact`, `Radix.listing6_exact` | IPv4 and IPv6. |
| C09 | Exact route query | partial | `Radix.exact_query_partial`, `Radix.exact_query_violated`, `Radix.exact_query_stale_violated` | Stored routes are found; routes that are not stored may be "found" too (two witnesses). |
| C10 | IPv6 longest prefix match | proved | `Radix.lookup6_is_lpm`, `Radix.ops6_results` |  |
| C11 | IPv6 routing never touches memory outside the 16-byte address | partial | `Radix.lookup6_in_bounds_partial`, `Radix.insert6_in_bounds_partial`, `Radix.lookup6_oob_violated`, `Radix.insert6_oob_violated`, `Radix.traverse6_oob_violated` | In bounds while no /128 route is stored; with /128 routes byte 16 is touched (three witnesses). |
| C12 | IPv4 longest prefix match (mtrie tables, default build) | partial | `Mtrie.mtrie_lpm_partial`, `Mtrie.mtrie_add_succeeds`, `Mtrie.mtrie_default_route_violated`, `Mtrie.mtrie_dangling_table_violated`, `Mtrie.mtrie_stale_element_violated`, `Mtrie.mtrie_failed_add_violated`, `Mtrie.mtrie_full_rules_violated` | Longest prefix match holds after every history of fair calls (lengths 1..32, additions that find room, deletions after which another long route stays in the same /16 and /24, fewer than 21846 calls). Outside it is false: five witnesses. |
| C13 | mtrie deletion is safe and returns its nodes | partial | `Mtrie.mtrie_delete_safe_partial`, `Mtrie.mtrie_delete_crash_violated`, `Mtrie.mtrie_delete_after_failure_crash_violated`, `Mtrie.mtrie_leak_violated` | Safe for the fair calls of C12; in general a deletion can dereference a null pointer, and tables leak (witnesses). |
| C14 | VRF isolation | proved | `Radix.vrf_isolation` |  |
| C15 | ARP lookup returns the latest MAC for the key | partial | `Arp.arp_lookup_partial`, `Arp.arp_lookup_stable`, `Arp.arp_lookup_race_violated`, `Arp.arp_lookup_stuck_violated` | Holds for every history without two races between halves of one caller (add_route lookup/insert, output get-MAC/save); with them a complete entry gets MAC 0, or lookups fail depending on the cache (witnesses). |
| C16 | ARP entries are conserved | proved | `Arp.arp_conserved`, `Arp.arp_insert_refused_iff` |  |
| C17 | Packets waiting for ARP are sent once, in order, or freed | partial | `Arp.waiting_sent_once`, `Arp.waiting_sent_all_partial`, `Arp.resolution_sends`, `Arp.waiting_order_reversed`, `Arp.waiting_order_violated`, `Arp.waiting_timeout_leak_violated`, `Arp.waiting_timeout_held_violated` | Sent at most once, to the right address, and all of them if no timeout or route deletion intervenes; but always in reverse order, leaked on timeout, and kept for ever when a route refers to the entry (witnesses and general theorems). |
| C18 | ARP entries used by a route stay, manual entries never age | proved | `Arp.referenced_stays`, `Arp.ageing_exact`, `Arp.manual_not_aged`, `Arp.lookup_refreshes` |  |
| C19 | IP reassembly never invents or misplaces data | proved | `Reass.reassembly_sound` |  |
| C20 | IP reassembly completes | proved | `Reass.reassembly_completes` | 2 to 17 fragments (the documented limit plus one), before the timeout. |
| C21 | Reassembly keeps working after timeouts | partial | `Reass.queue_count_partial`, `Reass.stuck_forever`, `Reass.reassembly_survives_violated` | The counter never falls below the number of queues, but timed-out queues are never subtracted: after 1025 incomplete datagrams reassembly stops for ever (witness). |
| C22 | Fragmentation is faithful | proved | `Frag.fragmentation_faithful`, `Frag.cut_concat` | For MTU >= header + 8 and well-formed options. |
| C23 | Fragment then reassemble is the identity | proved | `Frag.fragment_reassemble` | Up to 17 fragments. |
| C24 | Fragmentation terminates | partial | `Frag.fragmentation_terminates_partial`, `Frag.options_terminate`, `Frag.fragmentation_terminates_violated`, `Frag.fragmentation_small_mtu_violated`, `Frag.fragmentation_tiny_mtu_violated` | Terminates when no option has length 0 and the MTU is at least header + 8; otherwise it does not (witnesses for every payload). |
| C25 | Long timers fire exactly once, on time | proved | `Timer.long_timer_fires_once`, `Timer.timer_buffers_conserved`, `Timer.too_long_timer_violated` | For 10 <= s <= 8192 as stated (up to 2^50 long timers started); the witness shows that longer timeouts, which the code accepts, fire early. |
| C26 | Timer cancellation is exact | proved | `Timer.cancel_exact`, `Timer.handles_distinct`, `Timer.timer_buffers_conserved` | Up to 2^50 long timers started (identifier counter). |
| C27 | epoll registration behaves like a map | partial | `Epoll.ctl_is_map_partial`, `Epoll.ctl_badfd_violated` | Full map behaviour proved for any history, provided the socket getter detects invalid descriptors; the real getter never does (witness). |
| C28 | epoll_wait reports only and all ready descriptors | partial | `Epoll.wait_reports_ready`, `Epoll.wait_errors`, `Epoll.wait_long_timeout_violated` | Proved for all timeouts up to 2147483 ms; beyond, the code has undefined behaviour (witness). |
| C29 | TCP sequence comparison is wrap-around safe | proved | `Tcp.seq_compare`, `Tcp.seq_laws` |  |
| C30 | TCP reassembly delivers exactly the byte stream | partial | `Tcp.stream_exact_partial`, `Tcp.stream_progress`, `Tcp.demo_run`, `Tcp.padding_delivered_violated`, `Tcp.acked_data_lost_violated`, `Tcp.window_wraps_violated` | Exact for any order, duplication and overlap, across wrap-around, and with progress, if frames carry no padding and the 63 buffer slots suffice for what is queued; false otherwise (witnesses). |
| C31 | TCP reassembly queue is bounded and released | partial | `Tcp.queue_bounded`, `Tcp.packets_conserved`, `Tcp.read_conserved`, `Tcp.flush_leaks_violated` | Bound proved for arbitrary segments, conservation while connected; closing leaks every queued packet (proved for every non-empty queue). |
| C32 | SACK reports are truthful | proved | `Sack.sack_report` | Truthfulness is stated until the peer FIN is received (after it no more data are accepted). |
| C33 | SACK scoreboard is sound | proved | `Sack.scoreboard_shape`, `Sack.ack_una`, `Sack.scoreboard_acked`, `Sack.scoreboard_limit` | Sequence space outstanding below 2^31. The SACKed-bytes part excludes ACKs about 2^31 old (Recent) and allocation failure. |
| C34 | Socket buffers are byte queues | partial | `Sockbuf.sockbuf_is_queue`, `Sockbuf.sockbuf_bytes`, `Sockbuf.sockbuf_counter_partial`, `Sockbuf.sockbuf_counter_violated` | The ring is a queue; the byte counter is exact except after a flush (witness). |
| C35 | IPsec policy lookup honours priority | proved | `Ipsec.lookup_decides`, `Ipsec.decides_unique`, `Ipsec.inbound_decision` |  |
| C36 | IPsec policy objects live exactly as long as referenced | partial | `Ipsec.policy_calls_exact`, `Ipsec.policy_lifetime_partial`, `Ipsec.policy_distinct_partial`, `Ipsec.policy_info_partial`, `Ipsec.policy_lifetime_violated` | Holds for every history in which iteration steps past a destroyed policy only if no other policy was destroyed since (and reference counters do not reach 2^32); without that restriction a database policy ends up in the free pool (witness). |
| C37 | Interface names round-trip | proved | `Util.ifname_roundtrip`, `Util.ifname_injective` |  |
| C38 | Mask length conversions are exact | proved | `Util.mask6_exact`, `Util.mask_length_exact` |  |
| C39 | Link-local addresses are faithful | proved | `Util.link_local_exact`, `Util.link_local_injective` |  |
| C40 | Memory zones keep handles apart | partial | `Uma.objects_apart`, `Uma.calls_defined`, `Uma.zone_conserved`, `Uma.contents_kept`, `Uma.alloc_fresh`, `Uma.zone_range_partial`, `Uma.zone_range_violated`, `Uma.zone_destroyed_violated` | Only the range check of destroy is wrong: zone 32 is accepted and reads past the array; allocation from a destroyed zone is not refused (witnesses). |
| C41 | Transport checksum is the pseudo-header checksum | partial | `Cksum.ofp_in4_cksum_partial` | Inherits the segment-boundary restriction of C03. |
| C42 | select reports exactly the readable descriptors | partial | `Select.select_exact`, `Select.fd_sets`, `Select.select_blocking_partial`, `Select.select_long_timeout_violated` | Everything proved but the blocking condition for timeouts of 2^32 us and more, which is false (witness). |
| C43 | Hexadecimal arguments are read exactly | partial | `Util.hex_to_num_exact`, `Util.hex_digits`, `Util.hex_to_num_violated` | Exact for values that fit in an int; eight-digit values from 80000000 on are undefined behaviour (witness). |
| C44 | Reassembly stores a bounded number of fragments per datagram | partial | `Reass.stored_fragments_partial`, `Reass.stored_fragments_violated` | Holds as long as no malformed fragment arrives; with malformed ones the limit is void (witness). |
| C45 | Life time of an incomplete datagram | partial | `Reass.queues_expire`, `Reass.queue_lives_partial`, `Reass.queue_lives_violated` | Upper bound proved for every state; the lower bound fails when a fragment becomes the new head of the queue (its TTL field is not initialised). |
| C46 | Reassembly keeps VRFs apart | partial | `Reass.vrf_reassembly_partial`, `Reass.vrf_reassembly_violated` | The code ignores the VRF: true only if VRFs never share identification fields (witness of mixing). |
| C47 | Duplicates and overlaps do not prevent reassembly | partial | `Reass.reassembly_duplicates_partial`, `Reass.reassembly_overlap_violated` | Proved for repeated pieces; overlapping pieces can cover the datagram without it being delivered (witness). |
| C48 | MSG_PEEK is non-destructive and exact | partial | `Sockbuf.peek_partial`, `Sockbuf.peek_violated`, `Sockbuf.peek_hangs_violated` | Holds while the request lies within the first packet; otherwise the first packet is repeated, or the loop never ends (witnesses). |
| C49 | Datagram receive returns exactly one datagram | proved | `Sockbuf.dgram_recv` |  |
| C50 | End of stream only after the whole stream | partial | `Tcp.stream_exact_partial`, `Tcp.early_eof_violated` | Holds while the FIN lies inside the window (last conjunct); false when the window cuts the segment (witness). |
| C51 | A route always uses the ARP entry of its own gateway | partial | `Arp.route_gateway_partial`, `Arp.route_refcount`, `Arp.route_race_violated` | Proved when the ARP half of add_route is atomic; false if the ageing timer runs in between (witness). |
| C52 | A manually configured ARP entry stays | partial | `Arp.manual_stays_partial`, `Arp.manual_route_violated`, `Arp.manual_stale_timer_violated` | Only a dropped route reference, a removal by index or a (possibly stale) saved-packet timer can remove it - and they do (witnesses). |
| C53 | Destroying a policy twice is refused and harmless | partial | `Ipsec.destroy_once_partial`, `Ipsec.destroy_twice_violated` | The first destroy is exact; a second one rewires the lookup list into a cycle (witness: lookup never ends). |
| C54 | The documented ANY address selector matches every address | partial | `Ipsec.any_address_partial`, `Ipsec.any_address_violated` | The code has no ANY case: the range 0..0 covers only address 0 (witness). |
| C55 | Inbound SA selector check | partial | `Ipsec.selector_match_partial`, `Ipsec.icmp_match_violated` | Exact for packets other than ICMP; the ICMP rule reads the wrong bytes (ip_hl not multiplied by 4), refusing right and accepting wrong packets (witnesses). |
| C56 | Outbound policy verdict | partial | `Ipsec.outbound_decision_partial`, `Ipsec.outbound_decision_violated` | Holds when SAs are bound only to PROTECT policies; otherwise a DISCARD packet leaks the processing lock and a BYPASS packet is encrypted (witnesses). |
| C57 | Flush removes exactly the policies of the VRF | proved | `Ipsec.flush_exact` | Without interference by other threads during the flush, starting when no create or destroy is half done. |
| C58 | No missing byte is forgotten by the SACK sender | proved | `Sack.missing_kept`, `Sack.ack_exact`, `Sack.holes_exact` |  |
| C59 | SACK retransmission takes the lowest unsent hole | proved | `Sack.next_hole`, `Sack.rexmit_mark` |  |
| C60 | Skipping SACKed data never skips a missing byte | proved | `Sack.adjust_safe` |  |
| C61 | The first SACK block covers the segment that triggered it | partial | `Sack.sack_first_partial`, `Sack.sack_first_violated` | Holds if no byte of the segment was queued; otherwise the report starts at the original sequence number with the trimmed length and misses the tail (witness). |
| C62 | TCP option parser is total, safe and exact | proved | `Tcpopt.reader_total`, `Tcpopt.reader_meaning`, `Tcpopt.area_unique` |  |
| C63 | SACK blocks handed on lie inside the segment and fit the array | proved | `Tcpopt.sacks_bounded` |  |
| C64 | TCP options written never overrun the header | proved | `Tcpopt.writer_bounds` |  |
| C65 | SYN options survive the wire | proved | `Tcpopt.syn_roundtrip` |  |
| C66 | Timestamps and SACK blocks survive the wire | proved | `Tcpopt.data_roundtrip`, `Tcpopt.sack_with_ts_and_sig_violated` | The comment in the code counts on one SACK block behind timestamps and signature; the padding leaves room for none (second theorem). TCP_SIGNATURE is not compiled in. |
| C67 | Packet delivery to the best matching socket | partial | `Pcb.delivery_exact`, `Pcb.delivery_partial`, `Pcb.delivery_violated` | Exact for every history and hash function; the wildcard classes ignore the address family, so an IPv6-only socket takes IPv4 packets (witness). |
| C68 | bind is exclusive and honours the reuse options | partial | `Pcb.bind_exact`, `Pcb.reuseport_violated`, `Pcb.sendto_bind_violated` | Explicit bind is exact except that SO_REUSEPORT never permits sharing (proved for every reachable state: the flag it looks at is never set); sendto commits another address than the one it found free (witness: the answer goes to another socket). |
| C69 | Automatically chosen ports | proved | `Pcb.ephemeral_bind`, `Pcb.ephemeral_connect`, `Pcb.ephemeral_sendto` |  |
| C70 | One socket per connection | partial | `Pcb.connection_unique_partial`, `Pcb.connection_unique_violated` | Holds for all TCP histories and for datagram sockets bound before connect or without reuse options; otherwise two sockets get the same connection (witness). |
| C71 | Failed calls leave no trace | proved | `Pcb.failed_call_same`, `Pcb.rebind_refused` |  |
| C72 | Reconnecting a datagram socket keeps what it was bound to | partial | `Pcb.disconnect_violated` | The port is kept; the local address is always forgotten (proved for every disconnect). |
| C73 | Closing a socket releases everything | proved | `Pcb.close_releases` |  |
| C74 | A packet buffer is never used after it was given away | proved | `Fwd.buffers_used_at_most_once` |  |
| C75 | No packet buffer is lost | partial | `Fwd.no_buffer_lost_partial`, `Fwd.received_buffer_not_lost_partial`, `Fwd.ping_without_route_lost_violated`, `Fwd.expired_without_route_leaks_violated`, `Fwd.closed_port_lost_violated` | Holds when every route exists, output succeeds and the packet is no datagram to a closed port; violated otherwise (three families of witnesses: buffers neither sent nor freed). |
| C76 | Forwarding | proved | `Fwd.forwarded_packet`, `Fwd.transit_forwarded`, `Fwd.transit_expired` | The route itself is an oracle here; C05 and C12 are about the lookup. |
| C77 | What is sent fits the link and has a valid header | partial | `Fwd.sent_within_mtu`, `Fwd.transit_needfrag`, `Fwd.frag_needed_partial`, `Fwd.sent_headers_valid_partial`, `Fwd.zero_source_checksum_violated` | Checksum part excludes packets in transit with source 0.0.0.0, which get a new source without a new checksum (witness). |
| C78 | ICMP errors are never sent about ICMP errors | partial | `Fwd.no_error_about_errors`, `Fwd.no_icmp_recursion`, `Fwd.error_to_multicast_violated` | Packets with multicast or broadcast source are answered (witness). |
| C79 | Content of ICMP errors | partial | `Fwd.icmp_error_packet`, `Fwd.icmp_error_content_partial`, `Fwd.time_exceeded_partial`, `Fwd.error_copies_mf_violated`, `Fwd.error_quotes_wrong_bytes_violated`, `Fwd.error_leaks_memory_violated` | Quoted bytes right when the length field read in the wrong byte order is at least hlen+8 and the packet has 8 bytes of data; flags are copied, wrong bytes or memory behind the packet quoted otherwise (witnesses). |
| C80 | Ping is answered exactly | proved | `Fwd.echo_reply` | For messages that fit the MTU and when the reply is not held up by hooks, policy, ARP (hypothesis Leaves). |
| C81 | No access outside the packet | partial | `Fwd.no_access_outside_partial`, `Fwd.short_timestamp_violated` | Needs 2*hlen+16 bytes from the IP header on and enough data for ICMP; a short timestamp request is written beyond its end (all such packets). |
| C82 | Packets for this host and broadcasts are not forwarded | partial | `Fwd.local_not_forwarded_partial`, `Fwd.directed_broadcast_dropped`, `Fwd.limited_broadcast_forwarded_violated` | 255.255.255.255 is forwarded along the default route (witness). |
| C83 | Corrupt headers are dropped | proved | `Fwd.header_check`, `Fwd.corrupt_header_dropped` | ip_hl < 5 is not represented. |
| C84 | TCP sends exactly the bytes written | partial | `Snd.sent_bytes_before_close`, `Snd.sent_bytes_faithful_partial`, `Snd.sent_bytes_sack_partial`, `Snd.sent_bytes_sack_violated`, `Snd.sent_bytes_handshake_violated` | Full without SACK until the application closes; after close as long as no FIN goes out as a window probe; with SACK as long as no pass finds a hole it has no room for. Each exception has a witness (wrong bytes sent); besides, a handshake with an allocation failure sends one uninitialised byte. |
| C85 | Written data is kept until acknowledged | partial | `Snd.buffer_released_by_ack`, `Snd.buffer_is_unacked_tail_partial` | The step property is unconditional; the second (what is in the buffer is the tail of the stream behind snd_una) needs: no SACK, no FIN as window probe. |
| C86 | FIN | partial | `Snd.fin_only_after_close`, `Snd.fin_at_end_partial`, `Snd.fin_wait2_all_acked_partial`, `Snd.fin_at_end_violated`, `Snd.fin_probe_violated` | Never before close: unconditional. Position: without SACK and FIN probes; violated for data handed over before the handshake completes and for FIN probes (witnesses). |
| C87 | The peer's window is respected | partial | `Snd.pass_within_windows`, `Snd.sent_within_window`, `Snd.hist_within_window`, `Snd.window_update`, `Snd.reply_within_window_partial`, `Snd.hist_reply_within_window_partial`, `Snd.reply_within_window_violated` | Without SACK; replies to segments only when everything in flight lies in the window: otherwise snd_wnd is reduced below zero and wraps (witness). |
| C88 | What ends a connection | proved | `Snd.ends_only_for_reason`, `Snd.reset_ends` |  |
| C89 | Sending returns | partial | `Snd.output_returns_partial`, `Snd.send_returns_partial`, `Snd.output_returns_violated`, `Snd.output_no_route_violated` | Holds when every allocation and IP output succeeds; otherwise the loop goes on while the failure lasts (proved for every number of passes). |
| C90 | TCP state machine | proved | `Snd.state_follows_protocol`, `Snd.state_fixed`, `Snd.established_from_handshake` |  |
| C91 | Retransmission and persist timers exclude each other | proved | `Snd.timers_exclusive` |  |
| C92 | Unacknowledged data is always covered by a timer | partial | `Snd.data_covered_partial`, `Snd.loop_covered`, `Snd.shrunk_window_covered`, `Snd.data_covered_violated`, `Snd.data_covered_pool_violated` | Holds unless the last segment of a call is a pure acknowledgement or allocation fails (witnesses for both). |
| C93 | An owed acknowledgement is sent | partial | `Snd.timer_acks_partial`, `Snd.text_acked_partial`, `Snd.nothing_owed_after_send`, `Snd.trimmed_exactly`, `Snd.text_acked_violated` | Needs a packet; an acknowledgement that found the pool empty is forgotten (witness). |
| C94 | Descriptors are unique | proved | `Sock.descriptors_unique` |  |
| C95 | Sockets are not lost | partial | `Sock.accounted`, `Sock.one_place`, `Sock.released_partial`, `Sock.failed_accept_violated` | An ofp_accept that fails after it took the connection (peer has reset or closed it) loses socket and control block for ever (proved for every such call and every continuation). |
| C96 | Accept order | proved | `Sock.accept_fifo`, `Sock.accept_order` |  |
| C97 | Backlog | proved | `Sock.backlog_bound`, `Sock.backlog_max` | The bound of the code is 3q/2 established plus q+1 incomplete connections. |
| C98 | Closing a listening socket | proved | `Sock.closed_clean`, `Sock.abort_ends` |  |
| C99 | No use of a freed socket | partial | `Sock.no_crash`, `Sock.bad_descriptor_violated` | Holds as long as the application uses only descriptors it holds; ofp_close of any other follows a null pointer instead of returning EBADF. |
| C100 | Sleeper records are not lost | proved | `Sleep.records_conserved`, `Sleep.run_refines`, `Sleep.step_refines` |  |
| C101 | Wakeups are exact | proved | `Sleep.returns_when_woken`, `Sleep.wake_exact`, `Sleep.wake_one_exact`, `Sleep.wakeup_call` |  |
| C102 | Timeouts are exact | partial | `Sleep.timeout_exact_partial`, `Sleep.timeout_violated`, `Sleep.late_timer_violated` | Holds while no two threads sleep on one channel; all calls of ofp_select and ofp_epoll_wait share the null channel, and there a timer wakes the thread that went to sleep last. |
| C103 | No lost wakeup | partial | `Sleep.accept_no_lost_wakeup`, `Sleep.accept_at_rest`, `Sleep.read_no_lost_wakeup`, `Sleep.lock_exclusive`, `Sleep.select_lost_wakeup_violated`, `Sleep.select_data_violated`, `Sleep.accept_close_violated` | Proved for connections in ofp_accept and for data and end of stream in the receive calls. Violated for ofp_select and ofp_epoll_wait (check and sleep are not atomic; data at a buffer nobody ever blocked on wakes nobody) and for disconnecting a socket in ofp_accept. The so_error exit of ofp_accept is not modelled. |
| C104 | A connection needs the peer's answer | partial | `Syncache.conn_needs_answer_partial`, `Syncache.forge`, `Syncache.forged_violated`, `Syncache.forged_later_violated`, `Syncache.isn_known_violated` | Proved: the ACK matches a SYN/ACK that was sent, or a cookie under one of the two secrets. Violated as to what can be known: without cookies the number is always 31415; with cookies both secrets are zero at first and one of them stays zero until the second reseeding of a bucket. |
| C105 | SYN cookies are honoured while they are fresh, and only then | partial | `Syncache.cookie_honoured_partial`, `Syncache.cookie_expires_partial`, `Syncache.stale_cookie_violated` | Honoured for 16 seconds in every run (window scales at most 14, payload of the timestamp not zero). Refused when the bucket was idle for 32 seconds, but the next SYN of the bucket revives cookies of any age. |
| C106 | Both sides use the options they agreed on | partial | `Syncache.options_agree`, `Syncache.cookie_honoured_partial`, `Syncache.scale_least`, `Syncache.lost_scale_violated`, `Syncache.small_mss_violated` | Proved for connections from the cache and for cookies with a timestamp. A cookie without a timestamp loses window scaling after the SYN/ACK offered it; an MSS below 256 is lost. |
| C107 | The cache of half-open connections is bounded and loses nothing | proved | `Syncache.cache_in_order`, `Syncache.syn_taken` |  |
| C108 | Half-open connections go only for a reason, and go in the end | partial | `Syncache.entry_stays_partial`, `Syncache.bogus_ack_violated`, `Syncache.never_expires_violated` | The complete list of reasons is proved; it includes any ACK for the connection, even a wrong one (violation), and there is no timeout (violation). |
| C109 | One half-open connection per connection | partial | `Syncache.one_entry_partial`, `Syncache.twice_violated`, `Syncache.vrf_violated` | Holds if no SYN arrives while another thread is between the two halves of answering one for the same connection; the VRF is not compared. |
| C110 | SA handles stay good while they are held | partial | `Sad.sa_calls_exact_partial`, `Sad.sa_lifetime_partial`, `Sad.sa_info_partial`, `Sad.sa_usable_partial`, `Sad.sa_lifetime_violated` | Proved for every history in which an iteration steps past a removed SA only if no other was removed since, binding is atomic and fewer than 2^32-2 references exist. Stepping past two removed SAs hands out a freed object (violation). |
| C111 | Identifiers and inbound SPIs are unique | partial | `Sad.sa_distinct_partial`, `Sad.sa_calls_exact_partial`, `Sad.failed_create_partial` | sa_calls_exact_partial contains the reasons for refusing a creation; same histories as C110. |
| C112 | Destruction happens once, in order, and to the end | partial | `Sad.status_monotone_partial`, `Sad.destroy_once_partial`, `Sad.odp_in_order_partial`, `Sad.destroy_ok_partial`, `Sad.completion_ok_partial`, `Sad.failed_destroy_violated`, `Sad.leak_violated` | Order, uniqueness and completion are proved (ODP handles never given out twice for the order). After a failure of ODP the destruction cannot be repeated and the SA or its object stays for ever (violations). |
| C113 | Flushing removes the SAs of one VRF | partial | `Sad.flush_exact_partial` | When all SAs of the VRF are active, ODP agrees and no other thread interferes; stated for any database. |
| C114 | Binding an SA keeps it alive | partial | `Sad.bind_parts`, `Sad.bind_race_violated` | Atomic binding is covered by C110; between its critical sections the SA can be freed under the caller (violation). |
| C115 | A datagram arrives as it was sent | proved | `Udp.udp_round_trip`, `Udp.send_addresses`, `Udp.recvfrom_exact`, `Udp.udpSum_verifies`, `Udp.sockaddr_names` | The network in between may change TTL and header checksum and add padding; the packet is in one piece (fragments: C06) and has no IP options. |
| C116 | Sockets read only datagrams meant for them, in order, once | proved | `Udp.receive_history`, `Udp.input_safe`, `Udp.unicast_delivery` | receive_history is about complete datagrams; input_safe says who gets a packet whatever is in it. Events taken by callbacks are not reads. |
| C117 | Every member gets a broadcast or multicast datagram | partial | `Udp.group_delivery_partial`, `Udp.group_copy_violated`, `Udp.group_share_violated`, `Udp.directed_broadcast_violated` | Holds if all receivers share the port (SO_REUSEADDR or SO_REUSEPORT) and packet copies can be made. Violations: failed copy, a member without the option, broadcasts to a subnet. |
| C118 | Datagram sockets neither lose nor double-free packet buffers | proved | `Udp.buffer_history`, `Udp.input_conserves`, `Udp.recvfrom_conserves`, `Udp.sendto_outcome` |  |
| C119 | A read returns only bytes of the datagram | partial | `Udp.recvfrom_exact`, `Udp.receive_history`, `Udp.overread_violated`, `Udp.underflow_violated`, `Udp.headerless_violated` | Holds for complete datagrams. The length field is believed: longer than the packet, or below 8, it makes the read return memory behind the packet; a packet without UDP header is accepted. |
| C120 | Sockets of one VRF do not see packets of another | partial | `Udp.vrf_violated`, `Udp.input_safe` | Violated: lookup and delivery never compare VRFs. input_safe is what does hold. |
| C121 | The ordered tree is a bag of keys | proved | `Avl.tree_refines_bag`, `Avl.lookup_after_history`, `Avl.iterate_after_history`, `Avl.next_prev_spec`, `Avl.first_spec`, `Avl.insert_contents`, `Avl.delete_hit`, `Avl.delete_miss`, `Avl.insert_full`, `Avl.word_fields` | Each call atomic (the code takes the read/write lock in these calls). Pool and tree roots of other trees are a constant. |
| C122 | Ordered-tree lookups take logarithmic time | proved | `Avl.lookup_after_history`, `Avl.getSteps_log` |  |
| C123 | Access by position agrees with the order | partial | `Avl.index_after_history_partial`, `Avl.index_after_miss_violated`, `Avl.index_after_full_violated`, `Avl.spanLow_spec` | Holds for histories in which every call succeeded. Violated after deleting an absent key (rank of the last node is raised) and after an insertion that failed for lack of nodes (ranks on the way stay raised): positions are then wrong, a range walk follows a null pointer. |
| C124 | The rule table is a map and lists each VRF exactly | proved | `Avl.Rules.rules_after_history`, `Avl.Rules.vrf_listing_after_history`, `Avl.Rules.sim_init`, `Avl.Rules.sim_add`, `Avl.Rules.sim_remove`, `Avl.Rules.sim_search` | At least as many tree nodes as rule slots (the pool is sized 64 + VRFs + VLANs + routes). sim_*: the tree-backed table refines the map used in the Mtrie model, so the results about route lookup in the default build hold with the tree in place. |
| C125 | MD5 digests are those of RFC 1321 | proved | `Md5.md5_rfc`, `Md5.md5_chunks`, `Md5.md5_len`, `Md5.transform_q` | Spec.md5 is written from RFC 1321 and checked on its test suite. Inputs shorter than 2^32-63 bytes per call; the message as a whole has no bound. |
| C126 | MD5 of very long inputs | partial | `Md5.md5_rfc`, `Md5.long_input_violated` | Holds below 2^32-63 bytes (no fault in md5_rfc). Refuted for longer inputs: i + 63 wraps, the loop runs on beyond the input. |
| C127 | Initial sequence numbers advance | partial | `Md5.Isn.isn_advances`, `Md5.Isn.isn_monotone`, `Md5.Isn.isn_first_tick_violated` | Proved for the default of no reseeding, at most 524287 connections opened per tick of 10 ms, and once the clock is past its first tick; fails during the first tick. |
| C128 | Initial sequence numbers cannot be guessed | partial | `Md5.Isn.isn_secret_violated` | Refuted: the secret is a tick count and 24 zero bytes (reading of random data is commented out). |
| C129 | Packets are sent in order, once, per port | proved | `Burst.burst_exact`, `Burst.burst_lossless`, `Burst.refused_freed`, `Burst.burst_zero` | Driver answers are between -inf and the number of packets given, as ODP promises. The variables are per thread. |
| C130 | Retransmission timeouts stay in range | proved | `Rto.rto_range`, `Rto.rto_covers_sample`, `Rto.persist_range`, `Rto.tsSample_range` | For every history, including absurd measurements provoked by the peer; overflow of int wraps. |
| C131 | Round-trip estimation follows RFC 6298 | proved | `Rto.first_sample`, `Rto.later_sample`, `Rto.rto_formula`, `Rto.srtt_hull`, `Rto.rto_upper`, `Rto.tsSample_exact`, `Rto.measure_ts`, `Rto.measure_timed`, `Rto.karn` | For round trips up to 524288 ticks (87 minutes), within which nothing overflows; one tick is discounted from every measurement after the first, as the code documents. |
| C132 | Exponential back-off | partial | `Rto.backoff_partial`, `Rto.backoff_violated` | Holds except from the fourth to the fifth timeout, where the timeout can shrink to about half (the average is moved into the variance in the wrong scale). |
| C133 | When a silent peer is given up | proved | `Rto.gives_up`, `Rto.gives_up_time`, `Rto.gives_up_soon` | gives_up_soon: the lower bound of 79 s is attained, so the 100 s of RFC 1122 are not kept. |
| C134 | A connection that makes progress is not given up | partial | `Rto.drop_after_measurement_partial`, `Rto.measure_ts`, `Rto.progress_dropped_violated` | Holds if acknowledgements carry timestamps (each is then a measurement). Refuted without them. |
| C135 | Keep-alive ends only silent connections, and all of them | partial | `Rto.keep_drop_partial`, `Rto.uptime_violated` | Holds, up to one second, during the first 248 days of running; refuted at the moment the tick counter changes sign. |
| C136 | Keep-alive options are honoured | partial | `Rto.keep_option_exact`, `Rto.first_probe_partial`, `Rto.connect_timeout_partial`, `Rto.keepidle_violated`, `Rto.keepcnt_violated`, `Rto.keepidle_large_violated`, `Rto.keepinit_violated` | Times up to one minute are honoured for the first probe and for connecting; longer ones are cut to one minute, the number of probes is not honoured, times above 2^31 ticks are accepted and end the connection. |
| C137 | A closed window does not end a connection | partial | `Rto.persist_keeps`, `Rto.persist_range`, `Rto.persist_single_loss_violated` | A peer heard within 75 s is kept. One lost answer can end the connection (round trip of 40 ms, window closed for a while). |
| C138 | Losses slow the sender down | partial | `Rto.timeout_no_reduction_violated`, `Rto.dupack_no_reduction_violated`, `Rto.no_slow_start_violated` | Refuted for every history: congestion control is compiled out. |
| C139 | Stopped timers do not run | proved | `Callout.stopped_does_not_run`, `Callout.at_most_once` | For every interleaving. ODP timers with reusable handles and a parallel event queue are the environment; timeouts below 10 s (longer ones: C25, C26). |
| C140 | Timers do not run early | partial | `Callout.on_time_partial`, `Callout.early_run_violated`, `Callout.other_connection_violated`, `Callout.delack_orphan_violated` | Holds for a timer that is never armed or stopped while its event waits in the queue. Refuted otherwise: callout_pending is constantly 0, so a late event runs the newly armed timer, also one of the next connection using the control block. |
| C141 | Armed timers are not lost | partial | `Callout.not_lost_partial`, `Callout.stale_handle_violated`, `Callout.empty_pool_violated` | Holds if the timer pool is not empty and every action re-arms or stops its own timer. Refuted otherwise: the stale handle cancels a timer of another connection; with an empty pool the timer counts as running. |
| C142 | TIME_WAIT lasts two MSL | partial | `Tw.ends_for_reason`, `Tw.ends_in_time`, `Tw.bounded`, `Tw.table_size`, `Tw.msl_change_violated`, `Tw.maxtcptw_violated`, `Tw.no_table_violated` | Holds as long as the MSL is not changed at run time; then newer connections wait for older ones. The sysctl for the table size has no effect. The control blocks put into TIME_WAIT are distinct from those in it (one live block per connection). |
| C143 | Late segments in TIME_WAIT | proved | `Tw.segment_ends_only_new`, `Tw.reset_ignored`, `Tw.fin_again`, `Tw.answers`, `Tw.answers_repeat` |  |
| C144 | No acknowledgement of acknowledgements | partial | `Tw.pure_ack_answered_violated`, `Tw.ack_war_violated`, `Tw.data_not_answered_violated` | Refuted: the test of the segment length is inverted (tlen == 0), every pure acknowledgement is answered. |
| C145 | Control block and socket are released once | proved | `Tw.released_once` |  |
| C146 | FIN_WAIT_2 ends | partial | `Tw.fin_wait2_ends_partial`, `Tw.fin_wait2_not_early_partial`, `Tw.fast_recycle_effect` | For the first 248 days of running; the keep-alive timer of the same connection is the subject of C135. |
| C147 | Multicast delivery follows the source filter | partial | `Mcast.delivery_partial`, `Mcast.blocked_delivered_violated` | Holds except for blocked sources: a source in the list of an EXCLUDE membership is delivered, for every history (blocked_delivered_violated). Histories that set no empty list (C149). |
| C148 | Membership calls are exact | partial | `Mcast.calls_exact_partial`, `Mcast.step_exact`, `Mcast.views_believed` | For every history that sets no empty list (C149). Calls may also fault (C150) or hang (C152) instead of returning; ENOSPC of setting a filter is not exact (C149). |
| C149 | Setting a source filter replaces it | partial | `Mcast.set_replaces_partial`, `Mcast.set_empty_violated`, `Mcast.set_everything_violated`, `Mcast.set_full_violated` | Holds for non-empty lists that are accepted. Refuted for empty lists (the old sources stay and the mode changes around them), and for full lists if the old list had other sources. |
| C150 | Source limits are kept safely | partial | `Mcast.no_fault_partial`, `Mcast.full_fault`, `Mcast.full_violated`, `Mcast.block_unlimited_violated` | No fault while there is memory and the record has room. Refuted at the limit: the code that undoes the merge starts from an unset pointer; blocking ignores the limit of the membership. |
| C151 | Group records live as long as their members | partial | `Mcast.record_lives_partial`, `Mcast.close_leak_violated` | Holds as long as no socket is closed while a member. Refuted then: the record stays for ever, whatever is called later. |
| C152 | Membership calls release their locks | partial | `Mcast.lock_free_partial`, `Mcast.lock_left_violated` | Holds as long as IGMP reports no error. Refuted: a join that returns an error of IGMP leaves IN_MULTI_LOCK held. |
| C153 | The interface asks for what its sockets want | partial | `Mcast.interface_wants_partial`, `Mcast.record_counts`, `Mcast.asked_not_announced_violated`, `Mcast.include_forgotten_violated` | Holds for histories without close, IGMP errors and empty INCLUDE lists, fewer than 65536 members, and sources that are not both asked for by an INCLUDE member and excluded by every EXCLUDE member. Refuted for those, and after an empty INCLUDE list (the counter of INCLUDE members is decremented twice). |
| C154 | IPv6 transport checksums are those of RFC 8200 | partial | `Ip6.ofp_in6_cksum_partial`, `Ip6.ofp_in6_cksum_scope`, `Ip6.ofp_in6_cksum_violated`, `Ip6.nd_checksum_valid`, `Ip6.icmp_checksum_valid` | Holds for all packets whose addresses carry nothing in the second 16 bits of a link-local or multicast address. Refuted for the others (RFC 3306 groups): those bits are taken for an embedded scope and left out of the sum (ofp_in6_cksum_scope says exactly what is computed). |
| C155 | Every IPv6 packet buffer ends exactly once | partial | `Ip6.ip6_at_most_once_partial`, `Ip6.ip6_exactly_once_partial`, `Ip6.ip6_double_free_violated`, `Ip6.ip6_ext_double_free`, `Ip6.ip6_leak_violated`, `Ip6.ip6_echo_reply_leak_violated` | At most once for every history without extension headers; exactly once without extension headers, echo messages, error-causing packets and no-next-header packets. Refuted: every packet with an extension header for this host is freed twice; echo replies and packets without next header are never freed. |
| C156 | Packets waiting for a neighbour are kept, sent in order, and freed with the route | proved | `Ip6.ip6_records_conserved`, `Ip6.ip6_waits_at_route`, `Ip6.ip6_delete_frees`, `Ip6.ip6_waiting_sent_in_order`, `Ip6.ip6_wait_appends` | For every history of frames, sends and route changes; calls atomic. |
| C157 | Packets go to the neighbour they are for | partial | `Ip6.ip6_neighbour_used_partial`, `Ip6.ip6_resolution_partial`, `Ip6.ip6_neighbour_shared_violated`, `Ip6.ip6_gateway_violated` | Holds for on-link destinations if the node pool has room for the host route. Refuted without room (the Ethernet address is stored at the subnet route and used for all its hosts) and for gateways (their answer is never used for the routes through them). |
| C158 | Received packets do not change routes | partial | `Ip6.ip6_input_keeps_routes_partial`, `Ip6.ip6_redirect_violated` | No received frame removes or changes the next hop of a route in the table. Refuted: an advertisement or solicitation with any hop limit creates a host route that overrides a configured route. |
| C159 | Neighbour solicitations are answered, for own addresses only | partial | `Ip6.ip6_ns_answered_partial`, `Ip6.ip6_ns_foreign_violated`, `Ip6.ip6_dad_violated` | Every solicitation with an option is answered once, with the right addresses and checksum. Refuted: targets that are not addresses of the host are answered too; duplicate address detection is not answered. |
| C160 | IPv6 local delivery is exact | partial | `Ip6.ip6_local_delivery_partial`, `Ip6.ip6_local_foreign_violated`, `Ip6.ip6_all_nodes_violated` | Exact except for ff02::1, the solicited-node group of the link-local address (both not delivered) and foreign addresses with the interface identifier of the link-local address (delivered). |
| C161 | IPv6 forwarding follows the longest matching route | partial | `Ip6.ip6_forward_partial`, `Ip6.ip6_hop_limit_violated` | Route and neighbour are right and the packet is unchanged - including the hop limit, which is neither decremented nor checked (refuted). |
| C162 | IPv6 input stays within the packet | partial | `Ip6.ip6_input_in_bounds_partial`, `Ip6.ip6_notify_in_bounds`, `Ip6.ip6_short_frame_violated`, `Ip6.ip6_short_ns_violated`, `Ip6.ip6_quote_violated`, `Ip6.ip6_table_index_violated` | No access outside the packet for frames whose length matches their header and whose ND messages have a complete option; the chain of extension headers in quoted packets is safe for all. Refuted for short frames, short solicitations, frames shorter than their header says, and the protocol table (every neighbour advertisement indexes it with IPPROTO_DONE = 257). |
| C163 | IPv6 echo requests are answered | partial | `Ip6.ip6_echo_partial`, `Ip6.ip6_echo_source_violated` | Answered with the same identifier, number and data, and a correct checksum; refuted for the source address: it is that of the outgoing interface. |
| C164 | ICMPv6 errors are sent only where allowed, and quote the packet | partial | `Ip6.ip6_error_suppressed_partial`, `Ip6.ip6_error_content`, `Ip6.ip6_error_about_error_violated` | Multicast and unspecified addresses cause no error; the quotation is exact. Refuted: an ICMPv6 error behind an extension header is answered with an error, whose pointer is 0. |
| C165 | Unresponsive neighbours do not starve others | partial | `Ip6.ip6_unanswered_queued_partial`, `Ip6.ip6_exhaustion_violated`, `Ip6.send_exhausted`, `Ip6.send_many` | Queued as long as a record is free. Refuted: 2048 packets to one silent neighbour use all records for ever. |
| C166 | Configured addresses and local routes agree | partial | `Ifcfg.addresses_match_routes_partial`, `Ifcfg.step_good`, `Ifcfg.init_good`, `Ifcfg.full_list_violated`, `Ifcfg.mask32_violated`, `Ifcfg.foreign_vrf_violated`, `Ifcfg.add_foreign_address_radix_violated`, `Ifcfg.loop_prefix_violated` | For every history of calls that respect: prefix lengths up to 31, addresses and subnets nobody else uses, at most seven addresses per interface, secondary addresses in the VRF of the interface. Refuted outside: eight addresses, prefix length 32 (host route not local), add_ip with another VRF, address of another interface, loopback with a shorter prefix. |
| C167 | Bringing an interface up configures its address | partial | `Ifcfg.up_exact`, `Ifcfg.upLocal_exact`, `Ifcfg.up_success_without_address_violated`, `Ifcfg.mask32_violated`, `Ifcfg.loop_prefix_violated` | Exact effect for every consistent state under the conditions UpPre. Refuted: success is reported although the address belongs to another interface and was not configured; prefix length 32; loopback with a prefix shorter than 32. |
| C168 | Adding and deleting addresses is exact | partial | `Ifcfg.addIp_exact`, `Ifcfg.delIp_exact`, `Ifcfg.net_spec`, `Ifcfg.full_list_violated`, `Ifcfg.shared_subnet_violated`, `Ifcfg.foreign_vrf_violated` | Exact for every consistent state with at most seven addresses and no shared subnets. Refuted: an address of an interface with eight addresses cannot be removed; with two addresses in a subnet removing one removes the subnet route of both. |
| C169 | A refused configuration call changes nothing | partial | `Ifcfg.up_fail_noop`, `Ifcfg.down_fail_noop`, `Ifcfg.addIp_fail_noop`, `Ifcfg.delIp_fail_noop`, `Ifcfg.refusals`, `Ifcfg.add_foreign_address_violated`, `Ifcfg.full_list_violated` | up, down: in every state. add: if its two routes were free. del: in every consistent state. Refuted: a refused add of an address of another interface deletes the routes of that interface; a failing delete on a full interface deletes the routes. |
| C170 | Bringing an interface down removes all its addresses and nothing else | partial | `Ifcfg.down_exact`, `Ifcfg.full_list_violated`, `Ifcfg.shared_subnet_violated`, `Ifcfg.mask32_violated`, `Ifcfg.loop_prefix_violated`, `Ifcfg.delete_ifnet_violated` | Exact for every consistent state. Refuted: full address lists and prefix length 32 survive down; routes of subnets shared with other interfaces go too. |
| C171 | Configuring an interface leaves other routes alone | partial | `Ifcfg.up_exact`, `Ifcfg.down_exact`, `Ifcfg.addIp_exact`, `Ifcfg.delIp_exact`, `Ifcfg.static_add`, `Ifcfg.static_del`, `Ifcfg.vlan_up_default_route_violated`, `Ifcfg.vlan_move_default_route_violated`, `Ifcfg.shared_subnet_violated` | The exact effects state every other route unchanged. Refuted: configuring a VLAN interface that has no address, or moving one to another VRF, deletes a default route. |
| C172 | Looking up an interface by address is exact | partial | `Ifcfg.by_ip_exact`, `Ifcfg.match_port_exact`, `Ifcfg.owner_unique`, `Ifcfg.secondary_address_violated`, `Ifcfg.match_vlan_violated` | by_ip is exact for primary addresses, match without VLAN for all addresses of ports. Refuted: secondary addresses are not found by address; with a VLAN the VRF is ignored and an interface without the address is returned. |
| C173 | Sockets can be bound to every configured address | partial | `Ifcfg.bind_finds_primary_partial`, `Ifcfg.run_good`, `Ifcfg.secondary_address_violated`, `Ifcfg.bind_list_violated`, `Ifcfg.delete_ifnet_violated` | Exact for primary addresses. Refuted: secondary addresses are never found; an interface that lost its last address is not listed again by up (VLAN) or add; ofp_delete_ifnet leaves a freed interface on the list. |
| C174 | Interface configuration never crashes | partial | `Ifcfg.up_exact`, `Ifcfg.upLocal_exact`, `Ifcfg.vlan_pool_exhausted_violated`, `Ifcfg.delete_ifnet_violated` | No crash while a record is free (crash flag unchanged in the exact effects). Refuted when the records are used up. |
| C175 | A learned MAC address is known | partial | `Vxlan.relearn`, `Vxlan.learn_home`, `Vxlan.learned_is_known_partial`, `Vxlan.learned_is_known_violated` | Holds in every state for known addresses and free home slots, and for every history without two addresses of the same hash. Refuted for colliding addresses: old_key is not reset between rounds, so the next slot gets the end point but not the key. |
| C176 | Only learned end points are used | partial | `Vxlan.answers_are_learned_partial`, `Vxlan.answers_are_learned_violated` | For every history and every address but the all-zero one, for which it is refuted (its key is the mark of free slots). |
| C177 | Learning one MAC address does not affect another | partial | `Vxlan.learn_is_isolated_partial` | With fewer than 8192 different addresses and without the all-zero one. Missing: full tables. |
| C178 | A learned MAC address lives for one hour | partial | `Vxlan.known_for_two_hours_partial`, `Vxlan.forgotten_after_two_hours_partial`, `Vxlan.forgotten_after_an_hour_violated`, `Vxlan.known_for_an_hour_violated` | The life time is two hours (the hour is added when storing and when checking), exactly, until the 32-bit tick counter wraps. Refuted: one hour; and near the wrap entries are forgotten at once. |
| C179 | The MAC table is right under every schedule | partial | `Vxlan.concurrent_answer_partial`, `Vxlan.concurrent_answer_violated`, `Vxlan.refresh_lost_violated` | Under every schedule an answer is an end point and the MAC address is one that some thread learned, but refuted: not together, because the key is visible before the address; and the timer can delete an entry refreshed under it. Sequential consistency. |
| C180 | VXLAN round trip | proved | `Vxlan.vx_round_trip` | For every frame and every path that delivers the datagram with an IP header without options; network numbers below 65536. |
| C181 | Virtual networks are isolated | partial | `Vxlan.vni_demux_partial`, `Vxlan.vx_input_exact`, `Vxlan.arrives_exists`, `Vxlan.vni_isolation_violated`, `Vxlan.vni_zero_violated`, `Vxlan.vx_validation_violated` | Exact for network numbers 1 to 65535. Refuted: network 65536+v is delivered to v; network 0 is taken without interface; flag and length of the frame are not checked. |
| C182 | The outer headers of a VXLAN packet are right | partial | `Vxlan.vx_prepend_exact`, `Vxlan.vx_fields_partial`, `Vxlan.vx_lengths_violated` | Exact bytes for every frame; the lengths are right up to 65499 bytes of frame, refuted above. |
| C183 | The outer header of a GRE packet is right | partial | `Vxlan.gre_out4_exact`, `Vxlan.gre_out6_exact`, `Vxlan.gre_length_partial`, `Vxlan.gre_length_violated` | Exact bytes for every packet; refuted: the length wraps above 65511 bytes. |
| C184 | GRE packets reach the tunnel they belong to | proved | `Vxlan.gre_demux` | For every packet and set of tunnels. |
| C185 | GRE decapsulation restores the packet | partial | `Vxlan.gre_round_trip`, `Vxlan.gre_round_trip6`, `Vxlan.gre_input_untagged`, `Vxlan.gre_key_violated`, `Vxlan.gre_options_violated`, `Vxlan.gre_vlan_violated` | Round trip for every packet that this stack encapsulates. Refuted for GRE headers with key (flags tested in host byte order), outer IP options (fixed offset), and VLAN interfaces (destination address overwritten by the source address). |
| C186 | VLAN tags match the interface | partial | `Vxlan.send_plain_plain`, `Vxlan.send_plain_tagged`, `Vxlan.send_tagged_tagged`, `Vxlan.send_tagged_plain`, `Vxlan.untagged_interface_violated` | Exact for frames with at most one tag. Refuted: a frame with two tags leaves an untagged interface with one. |
| C187 | IPv6 packets reach the right socket | proved | `Pcb6.delivery6_exact`, `Pcb6.accepted4_not_ipv6` | For every hash function, every history of calls on sockets of both families and every packet to an address other than `::`. Peers whose last 32 address bits are 0 are excluded from histories (they are mistaken for no peer by the IPv4 code). |
| C188 | The address families are kept apart | partial | `Pcb6.no_v6_for_v4_partial`, `Pcb6.delivery4_partial`, `Pcb6.v6only_gets_v4_violated`, `Pcb6.accepted6_gets_v4_violated` | The IPv6 half holds for every history; the IPv4 half if all sockets with the port take IPv4. Refuted: a socket with IPV6_V6ONLY bound to `::` receives IPv4 packets; with ip6_v6only = 0 an accepted IPv6 connection receives the segments of an IPv4 peer whose address is the last word of its peer. |
| C189 | Explicit bind of an IPv6 socket | partial | `Pcb6.bind6_exact`, `Pcb6.reuseport6_violated`, `Pcb6.dual_bind_steals_violated` | Exact against IPv6 sockets, for every history. Refuted against IPv4 sockets (ip6_v6only = 0): `::` can be bound although an IPv4 socket has any address of the port; SO_REUSEPORT has no effect. |
| C190 | The port the stack chooses for an IPv6 socket | proved | `Pcb6.ephemeral_bind6`, `Pcb6.ephemeral_sendto6`, `Pcb6.ephemeral_listen6` | For every history, range and random number; completeness (failure only if no port is free) for bind. |
| C191 | connect of an IPv6 socket | partial | `Pcb6.connect6_udp_partial`, `Pcb6.connect6_tcp`, `Pcb6.connect6_mapped_refused`, `Pcb6.connection6_unique_violated` | Stream sockets: always. Datagram sockets: unless the socket is unbound and has SO_REUSEADDR or SO_REUSEPORT, where uniqueness is refuted. |
| C192 | A failed call on an IPv6 socket changes nothing | partial | `Pcb6.failed_bind6_partial`, `Pcb6.failed_connect6_partial`, `Pcb6.failed_call_deafens_violated`, `Pcb6.failed_tcp_connect_binds_violated` | Failed bind and datagram connect change nothing but the family flags of the socket; refuted: these flags decide which packets it receives (ip6_v6only = 0), and a failed stream connect leaves the socket bound. |
| C193 | The address structure passed in is not changed | partial | `Pcb6.bind6_keeps_port_partial`, `Pcb6.bind6_clears_port_violated`, `Pcb6.sendto6_overwrites_violated`, `Pcb6.sendto6_keeps_partial` | Refuted: every bind to a unicast address clears the port in the structure of the caller; sendto to a mapped address overwrites it (ip6_v6only = 0). Holds for the other cases. |
| C194 | Disconnecting an IPv6 datagram socket | partial | `Pcb6.disconnect6_partial`, `Pcb6.disconnect6_half_violated`, `Pcb6.disconnect6_unconnected_violated` | Exact for sockets whose IPv4 flag is off; refuted with ip6_v6only = 0. |
| C195 | An IGMPv3 report states the filter of the group | proved | `Igmp.report_states_filter`, `Igmp.parse_encode` | Reports that start with a new packet: for every group and list of sources; a call fails only if the queue is full. Allocation failures are left out. |
| C196 | A record appended to an IGMPv3 report | partial | `Igmp.report_appends_partial`, `Igmp.report_fits_mtu_violated` | Exact except for the size: the room is computed without the 32 bytes of headers, so the report may exceed the MTU (refuted); it fits if all sources of the group fit. |
| C197 | No spurious empty record | partial | `Igmp.report_never_empty_partial`, `Igmp.report_never_empty_violated` | Holds if every source of the group is in its mode; refuted when the sources that remain for a further packet are not. |
| C198 | Sources of an EXCLUDE record are in one record | partial | `Igmp.exclude_in_one_record_partial`, `Igmp.exclude_in_one_record_violated` | Holds while the sources fit one packet; refuted otherwise: several EXCLUDE records, each replacing the one before. |
| C199 | A change of the source list is reported exactly | partial | `Igmp.change_reported_partial`, `Igmp.change_reported_violated`, `Igmp.change_unblock_violated` | Exact if there are sources of both kinds and no source of an EXCLUDE group is in INCLUDE mode; refuted for every change of one kind only that fits a packet (the record header is removed from the packet), and for a source going from excluded to included in an EXCLUDE group. |
| C200 | The count of records in an IGMPv3 report | partial | `Igmp.report_states_filter`, `Igmp.report_appends_partial`, `Igmp.change_count_violated` | Right for current-state and mode-change records; refuted for every change of the source list: the count is uninitialised memory. |
| C201 | Queries of IGMP versions 1 and 2 are answered | partial | `Igmp.Host.query2_answered`, `Igmp.Host.query1_answered_partial`, `Igmp.Host.query2_sleeping_violated`, `Igmp.Host.query1_joining_violated` | Version 2: always, for members not put to sleep by a version 1 report; refuted for those: the query only makes them ready for the next. Version 1: if the timer of the join does not run; refuted if it does. The handlers are modelled as called; see C210 for packets. |
| C202 | General queries of IGMPv3 are answered | partial | `Igmp.Host.query3_answered`, `Igmp.Host.query3_pending_violated` | Holds for every history unless a query for the group is pending; refuted then: the group is left out and waits for its own timer. |
| C203 | Group queries of IGMPv3 are answered | partial | `Igmp.Host.query3g_answered`, `Igmp.Host.query3g_kept`, `Igmp.Host.sources_postponed_violated` | Holds for group queries, whatever other queries of version 3 follow; refuted for repeated queries for sources, which postpone the answer for ever. |
| C204 | Groups that are never reported | proved | `Igmp.Host.never_reported` | For every history. |
| C205 | State changes of IGMPv3 are reported robustness-variable times | proved | `Igmp.Host.join_reported`, `Igmp.Host.leave_reported` | For every history before and after; memberships for any source. See C199, C200 for changes of source lists. |
| C206 | The compatibility mode ends | partial | `Igmp.Host.compatibility_forever_violated`, `Igmp.Host.compatibility_no_records` | Refuted: from every reachable state of an older version no history leads back to version 3, and no record of version 3 is sent. |
| C207 | The report of a join is repeated | partial | `Igmp.Host.join_not_repeated_violated` | Refuted for every join on a link of version 1 or 2: the timer runs out in state IDLE, where it is ignored. |
| C208 | A group joined again is reported | partial | `Igmp.Host.rejoin_violated` | Refuted: a group left and joined again before the first report of the leave ends as a member about which nothing is sent, whatever happens. |
| C209 | Response codes of IGMPv3 are decoded | partial | `Igmp.Host.codes_partial`, `Igmp.Host.codes_violated` | Codes below 128 only; refuted for every code from 128 on (the implied bit of the mantissa is missing). |
| C210 | Queries of IGMP versions 1 and 2 are recognised | partial | `Igmp.Input.old_queries_violated` | Refuted for every datagram: the length compared is that of the datagram including the IP header, so it is never 8. |
| C211 | General queries of IGMPv3 are recognised | partial | `Igmp.Input.general_query_partial`, `Igmp.Input.general_query_violated` | Holds if the packet data starts with the IP header and zeros follow; refuted for every Ethernet frame, tagged or not, with the usual header lengths (20, 24): the message is read at the wrong place. |
| C212 | The IGMP checksum is over the message | partial | `Igmp.Input.checksum_partial`, `Igmp.Input.checksum_violated` | Holds if zeros follow the message; refuted for every message with good checksum: some memory behind it makes it dropped. |
| C213 | Names lead to the variable registered under them | partial | `Sysctl.names_partial`, `Sysctl.trailing_dot`, `Sysctl.duplicate_number_violated` | Holds for every tree in which explicit numbers are below 256 and not taken by a sibling; refuted otherwise: nothing checks for equal numbers, and the name of the second entry leads to the first. |
| C214 | Adding a variable adds it and nothing else | proved | `Sysctl.add_exact` | For every reachable tree. |
| C215 | Numbers and structures are read and written whole | proved | `Sysctl.number_exact`, `Sysctl.const_exact` | For every entry of this kind, buffer and value. |
| C216 | Read-only variables do not change | proved | `Sysctl.read_only_kept` | For every history. Handlers of other modules (PROC) are not modelled. |
| C217 | Strings stay within their buffer | partial | `Sysctl.string_partial`, `Sysctl.string_overflow_violated` | Values below 2 GB; refuted for those from 2 to 4 GB: the length is compared as an int. |
| C218 | Times are kept in milliseconds | partial | `Sysctl.msec_partial`, `Sysctl.msec_negative_violated` | Times from 0; refuted for every negative one: hz is unsigned, so it is taken for more than 122 days. |
| C219 | Options that are switched read back as they were set | partial | `Sockopt.flag_partial`, `Sockopt.unreadable_violated` | Refuted for OFP_SO_NO_DDP, OFP_SO_NO_OFFLOAD, OFP_SO_SETFIB and OFP_SO_USER_COOKIE: set with success, not readable. |
| C220 | Buffer sizes and low-water marks are exact and consistent | proved | `Sockopt.marks_kept`, `Sockopt.size_exact`, `Sockopt.mark_exact` | For every history. |
| C221 | The option to linger reads back as set | partial | `Sockopt.linger_partial`, `Sockopt.linger_violated` | Times in the range of short; refuted for all others: so_linger is a short, and nothing checks. |
| C222 | Timeouts read back as set, and are waited for | partial | `Sockopt.timeout_partial`, `Sockopt.timeout_read_violated`, `Sockopt.timeout_wrap_violated` | Refuted: a time is read as struct timeval, so its microseconds are missing from struct ofp_timeval; a wait of 4295 seconds or more is cut to 32 bits of microseconds. |
| C223 | A call that fails changes nothing | partial | `Sockopt.refused_partial`, `Sockopt.setfib_violated` | Refuted for OFP_SO_SETFIB with a value that is too short. For multicast options see the module Mcast. |
| C224 | Success means effect | partial | `Sockopt.nopush_partial`, `Sockopt.ignored_violated`, `Sockopt.ignored_udp_violated` | Holds for OFP_TCP_NOPUSH and OFP_TCP_CORK; refuted for all other options of TCP sockets and for options of IP on UDP sockets that are not for multicast. |
| C225 | Calls leave no lock held | partial | `Sockopt.held_partial`, `Sockopt.held_violated` | Refuted for the level OFP_IPPROTO_UDP of UDP sockets. The lock is a real one unless OFP_RSS is defined. |
| C226 | An error is reported once | proved | `Sockopt.error_exact` | For every history. |
| C227 | Accepted sockets have the options of the listening socket | partial | `Sockopt.inherit_partial`, `Sockopt.autosize_violated`, `Sockopt.size_fixed` | Every readable option; refuted for the size being fixed: the accepted socket has SB_AUTOSIZE again. |
| C228 | A line calls the command it says, with the parameters it gives | partial | `Cli.called_partial`, `Cli.called_only`, `Cli.found_exact`, `Cli.tokens_quoted`, `Cli.trailing_violated`, `Cli.placeholder_violated` | Refuted: words behind a complete command are ignored, so a longer line than any command calls one; and the placeholder of a parameter, typed as it is shown, is accepted for it, and the function is called without a parameter. Lines of more than 49 words are not modelled. |
| C229 | Commands can be added | partial | `Cli.add_partial`, `Cli.add_violated` | If no command that is there begins with its words; refuted otherwise: the program is stopped. |
| C230 | The parameters of a line fit their buffer | partial | `Cli.room_partial`, `Cli.room_violated`, `Cli.tokens_two` | Lines of up to 98 characters; refuted for longer ones: 195 characters are written into a buffer of 100. |
| C231 | IPv4 addresses are taken as they are written | partial | `Cli.ip4_accepted`, `Cli.octet_accepted`, `Cli.ip4_partial`, `Cli.ip4_range_violated`, `Cli.ip4_hex_violated` | Every right address; refuted for numbers from 256 to 999 and for hexadecimal ones, which are accepted too. |
| C232 | IPv6 addresses are taken as they are written | partial | `Cli.ip6_full`, `Cli.ip6_partial`, `Cli.ip6_accepted`, `Cli.bytes_exact`, `Cli.ip6_seven_violated`, `Cli.ip6_double_violated` | All eight groups, and two colons with up to seven groups in most places; refuted for two colons with seven groups before or after them (refused) and for two pairs of colons (accepted). |
| C233 | What is typed is what is carried out | proved | `Cli.typed_exact`, `Cli.keys_prints` | For every set of commands and what they call. |
| C234 | Keys do not overrun the line | partial | `Cli.buffer_partial`, `Cli.buffer_violated` | Any bytes but tabs and question marks; refuted for these: completion does not look at the room that is left. |
| C235 | Completion does not spoil the line | partial | `Cli.tab_partial`, `Cli.tab_violated` | Behind the first word of a command and behind blanks; refuted behind parameters: what is left of their placeholder is put into the line. |
| C236 | Earlier lines come back | partial | `Cli.recall_partial`, `Cli.recall_violated` | Earlier lines, up to eight, each different from the one before it; refuted for the key for later ones: it first goes one step further back. |
| C237 | Telnet commands and special keys are no text | partial | `Cli.telnet_partial`, `Cli.telnet_violated`, `Cli.arrows`, `Cli.delete_violated` | Negotiations, the display size, arrow keys; refuted for telnet commands of two bytes, which swallow the next character, and for the delete key, which types a tilde. |
| C238 | An alias carries out what it was set to | partial | `Cli.alias_partial`, `Cli.set_prefix_violated`, `Cli.run_prefix_violated` | Up to 16 aliases, of which none is named like the beginning of another, and which are no commands; refuted for names that are the beginning of others: setting the shorter one changes the longer one, and the longer one may run the shorter one. |
| C239 | A line is carried out once | partial | `Cli.once_partial`, `Cli.once_violated` | If the commands of aliases are no aliases; refuted for an alias of an alias: it is not carried out, and the next line, whatever it is, carries it out too. |
| C240 | Setting an alias does not stop the program | partial | `Cli.alias_partial`, `Cli.empty_violated` | For names that are no commands and commands that are not empty; refuted for the empty one: strdup of NULL. See C229 for names that commands begin with. |
| C241 | The packet rate is that of the packets | partial | `Stat.measured_exact`, `Stat.rate_partial`, `Stat.missed_violated` | If the numbers of the threads are below that of threads, for periods of at most a second; refuted for other threads: their packets are not counted. The rate ends up to one packet per second too low. |
| C242 | The rate is computed once a period while it is switched on | partial | `Stat.one_partial`, `Stat.two_violated` | If the flag is only set again when the timer has run off; refuted otherwise: there is one timer more for good. |
| C243 | Computing the rate does not stop the program | partial | `Stat.fire_partial`, `Stat.zero_violated` | If the clock has advanced; refuted for two timers (C242) at the same time: division by zero. |
| C244 | A hardware address is recognised | proved | `Util.has_mac_exact` |  |

How they are proved, by topic:

* **Checksums**: the word loop keeps "sum mod 2^16-1"; folding preserves it; byte order by a swap lemma.
* **Radix tables**: abstraction of the trie to a finite map from prefixes to data; every operation refines the map
  operation; node counts by a conservation invariant.
* **mtrie**: an invariant per table slot ("the best rule among those of this level covering the slot"), preserved by
  fair calls; witnesses for the rest.
* **ARP and routes**: small-step transition system with one step per critical section; invariant on entry places
  (free list, set chain) and a ghost map of the latest MAC; refinement over all interleavings.
* **Reassembly, fragmentation**: each queued fragment is a slice of the datagram; loop invariants; composition gives
  the round trip.
* **Timers, epoll, socket buffers, memory zones**: refinement to a map / queue / set of handles.
* **TCP receive**: the queue is a chain of slices at stream offsets (no wrap-around), related to sequence numbers by
  `seqOf`; `diff_eq` transfers every comparison.
* **SACK sender**: invariants directly on circular distances `off snd_una x`; the sweep is proved block by block; a
  ghost set of reported bytes gives exactness over histories.
* **SACK receiver**: refinement of `ofp_tcp_update_sack_list` to the same function on stream offsets, and a coverage
  invariant (report ⊆ queue ∪ delivered) through window trimming and reassembly.
* **IPsec policies**: index-based memory, invariant with separation of database, lookup and free lists, ghost
  reference counts per holder.
* **TCP options**: every byte string splits uniquely into TLV items and a stopper; the parser refines the meaning of
  the items; the writer's output is such a sequence.
* **Control blocks**: structural invariant (each chain holds exactly the bound blocks whose fields hash there, port
  lists exactly the blocks of the port) preserved by every call for every hash function; lookups, port search and
  conflict tests are then characterised by the set of bound blocks alone.
* **IPv4 input and output**: the functions return a code and a trace of events on numbered buffers; every outside
  decision is an oracle. An accounting predicate (drop = not yet disposed of, processed = disposed of once) is
  composed through all functions; content theorems compute the packet sent from the packet received.
* **TCP sender**: one pass of `ofp_tcp_output`, `ofp_tcp_do_segment` and the timers as functions of a control block and an
  environment; the main invariant places `snd_una`, `snd_nxt`, `snd_max` in the stream by unbounded positions. A second,
  coarser view (`Moves`) lists elementary moves and shows that every event is a composition of them; timer, state
  machine, FIN and buffer properties are induction over moves.
* **Life of sockets**: one step per stretch of code under a lock, program counters of the threads inside accept and close
  in the state; an ownership map (who has the socket) as ghost state, preserved by every event of every interleaving.
* **Sleeping**: refinement of the record lists by the machine callers see, then one induction per question. For lost wakeups
  the waiting loops, their lock and the threads that change the condition are interleaved; the invariant bounds what is
  there by the wakeups outstanding, the threads woken and the thread at the check.
* **Half-open connections**: cookie arithmetic by words (what the receiver reads in what the sender wrote), provenance of
  entries and conservation of records by induction over histories, an invariant on the two secrets for the lifetime of a cookie.
* **SA database**: like the policy database, a simulation between the cell array and the database users see; the destroyer's
  program counter is part of the state, so destructions interleave with everything else. Flushing by induction on what is left.
* **Datagram sockets**: the delivery loop is replaced by a list of receivers (`multiLoop_eq`); histories carry what came in and
  what was read, and an invariant splits the former into read, queued and dropped. The round trip is by the bytes of the wire image
  and the checksum theorem of `Cksum` (sum without checksum field plus its complement).
* **Balanced tree**: inductive trees with a list of frames for the parent pointers; one lemma per climbing loop (`climb_bal`,
  `shrink_bal` for heights and contents, `climb_rank`, `shrink_rank` for the 30-bit ranks), descents by induction on the tree.
  Histories are compared with a bag (`SpecRun`) and, for the rule table, with an association list (`mrun`).
* **C125–C128** (`Md5`): MD5Transform is kept as the list of its 64 macro calls on four named variables; groups of four calls are four steps of the RFC's round function. A context invariant (whole blocks absorbed, rest at the start of the buffer, bit count) is kept by each update, accesses outside arrays being faults. The ISN counter is compared with two counters over ℕ.
* **C129** (`Burst`): a flat packet table with faults; invariant: the packets waiting per port sit in the port's slots; the log of what happened to each packet, per port, followed by the waiting packets is the sequence handed over.
* **C130–C138** (`Rto`): machine integers as `Int` with explicit conversions; `rangeSet_bounds` needs no assumption (it absorbs any overflow), `Avg` bounds the averages so that below 87 minutes nothing overflows and the arithmetic is exact. Histories by induction with the invariants `Rng`, `Avg`, `Hull`; silence by `silent_inv`. Keep-alive: time and timers explicit, invariant `KInv` (the stored time of the last segment lags by at most a second, the timer is set before the limit). The congestion window is a small machine with every assignment in the source.
* **C139–C141** (`Callout`): ODP timers as a function from handles to free / armed / queued / running, callouts as a function; every interleaving is a list of operations. `stopped_does_not_run` needs only the active flag; `CalmInv` (at most one underlying timer per callout, its time not before the one asked for) and `KeptInv` (a remembered handle belongs to the callout) by induction.
* **C142–C146** (`Tw`): the queue of TIME_WAIT entries; invariant: sorted by the time of the last restart, stored expiry is that time plus 2 MSL modulo 2^32, no control block twice, bounded. `ack_war_violated` runs two hosts against each other. `Fw2` adds time and the FIN_WAIT_2 timer.
* **C147–C153** (`Mcast`): memberships as one list, group records with their 16-bit counters. `step_exact`: every call refines the specification of RFC 3678 in `Spec` (invariant `Good`: nothing pending, one mode, no source twice). `Refs`: references of a record are memberships + holds of IGMP + those leaked by closes. `CInv`: every counter of a record is the sum over the members, modulo 2^16; `record_counts` turns the sums into numbers of members.
* **C154–C165** (`Ip6`): the state is the tree of `Radix` with next-hop records, waiting packets and a trace of buffer events. Ownership (`phi`: events that end a buffer + places where it waits) is followed through every function (`Own`, `Rx`), histories by induction (`Hist`); `Inv` ties the tree to the abstract table of `Radix.Spec` so that routes can be stated as longest match. Violations run whole histories from initialisation (`World` reduces the checksum loops by lemmas).
* **C166–C174** (`Ifcfg`): interfaces as a partial function of (port, VLAN), the routing table as a partial function of (VRF, network, length). Invariant `Good`; exact effects of each call as state equations (`Effect`, `Props`, `Props2`); the loop of `ofp_free_ifnet_ip_list`, which reads masks from the list it is destroying, by an invariant on positions (`freeLoop_eq`); histories by induction (`run_good`); look-ups by uniqueness of owners.
* **C175–C179** (`Vxlan/Tab*`, `Conc*`): the open-addressing table as a function from slots; a look-up is characterised by the first slot of the probe sequence with the key or free (`getMac` specification in `TabLemmas`), learning by the first slot where it stops; invariants by induction over histories. Threads split the calls at their atomic instructions; the invariant of `ConcProps` says that keys and addresses in the table and in local variables were passed to some call. **C180–C186** (`Encap`, `GreProps`): packets as byte lists with head room; exact bytes by splitting lists.
* **C187–C194** (`Pcb6`): the table of `Pcb` plus the high words and IPv6 flags of each block; the IPv4 functions are reused and shown not to move blocks of other sockets (`Keep`). Invariant `Inv6`: that of `Pcb`, and blocks that are neither bound nor dropped are blank in both families. Look-ups are characterised by `Takes6`, conflicts by `Free6`, every call by its exact effect on the table (`Ops`, `Hist`), histories by induction (`Reach6.inv`).
* **C195–C200** (`Igmp/Rec*`, `Change`): packets as lists of 32-bit words; the specification is a reader of group records after RFC 3376 (`parse`). The loops that fill packets preserve "taken ++ remaining = chosen" (`takeSrcs_exact`), by induction over the tree; filter changes by the invariant `Holds` (the packets read as the records so far) and the lemma that after a full record the tail has no room (`round_kind`).
* **C201–C209** (`Igmp/Host*`): one link with its list of groups, as a transition system whose events are joins, leaves, queries, heard reports and ticks; every event acts on each group on its own (`act`, `HostAct`). Invariant `Inv` (versions, timers, states that fit) by induction over histories; "answered in time" by a ranking argument (`Waits12`, `Waits3`: the timer bounds the ticks left, every undisturbed event keeps it); "never" by invariants of the group alone (`Only`); the exact number of reports by the schedule `Sched` (`HostChange`). **C210–C212** (`Igmp/Input`): the packet is a function from addresses to bytes, also behind its end; checksums from `Cksum`.
* **C213–C218** (`Sysctl`): the tree is a family of lists; the specification `At` says which entry is under which path, without numbers. Induction over the path shows that names are translated to numbers and back to the same entry (`walk_at`, `at_walk`), from the invariants that names (always) and numbers (under the rules of `FairReach`) of siblings differ; values are byte strings.
* **C219–C227** (`Sockopt`): one socket and a transition system of calls, errors and accepts. Claims are about what `getsockopt` gives (`ReadsInt`, `ReadsSame` for every other option); `C220` by the invariant `Buf.Ok` over all histories, `C226` by induction over the history behind the last error or reading.
* **C228–C237** (`Cli`): commands are lists of words (`build`), the tree is shown to hold just their paths (`paths`, by induction over adding); `Says` and `Only` define, without the tree, that a list of tokens says a command and no other; parsers of addresses are proved against `dotted`, `join` and `value`, by induction over the string, with the state of the C loop as invariant. Lines are edited by a transition system of bytes (`keys`); `C234` by the invariant `Small`, `C236` by `Ring` (which slot holds which line), by induction over the lines.
* **C238–C240** (`Cli/Alias`): the table, the tree and the alias to be run next are a state; aliases are set in any history (`setAll`), with the invariant `Set` (which names the table has, what each was set to last, and that the tree has one more word for each), by induction; that the name then carries it out follows from `found_exact`.
* **C241–C243** (`Stat`): counters, clock, flag and the number of running timers are a state; `C241` is exact for one period (`measured_exact`) and converges by induction over the periods; `C242` by an invariant over all histories of `set` and timers.
* **C244** (`Util`): a statement about six bytes, by propositional reasoning.

## 4. What is modelled and what is not

| directory | code modelled | not modelled / assumed |
|-----------|---------------|------------------------|
| `Cksum` | `src/ofp_in_cksum.c` (buffer, IP header, packet, transport checksums), the TTL update of `src/ofp_pkt_processing.c` | ODP segment layout is a list of byte lists |
| `Radix` | `src/ofp_rt_lookup.c` IPv4 and IPv6 tries, `ofp_set_route_msg` table choice | physical node identity; locks |
| `Mtrie` | `src/ofp_rt_mtrie_lookup.c` IPv4 part (default build) | the tree of rules is a map (justified by `Avl`: `sim_add`, `sim_remove`, `sim_search`); locks |
| `Arp` | `src/ofp_arp.c` and the ARP half of `src/ofp_route.c` add/delete, saved packets, ageing | MAC contents, hash function (parameter) |
| `Reass` | `src/ofp_reass.c` | freeing of packet buffers, ICMP error on timeout |
| `Frag` | `ofp_fragment_pkt` of `src/ofp_pkt_processing.c` | allocation failure |
| `Timer` | long-timer wheel of `src/ofp_timer.c` | ODP timers below 10 s |
| `Epoll` | `src/ofp_epoll.c`, `ofp_select` scan | concurrent calls on one object |
| `Sockbuf` | `src/ofp_uipc_sockbuf.c`, receive loops of `src/ofp_uipc_socket.c` | event callback, `sb_mbcnt` |
| `Tcp` | `include/ofpi_tcp_seq.h`, `src/ofp_tcp_reass.c`, text processing of `src/ofp_tcp_input.c` | urgent data, timers, congestion control |
| `Sack` | `src/ofp_tcp_sack.c` (both sides), its call sites in `src/ofp_tcp_input.c`, `src/ofp_tcp_output.c` | statistics; the global hole limit is an oracle |
| `Ipsec` | `src/ofp_ipsec_spd.c`, policy part of `src/ofp_ipsec.c`, `src/ofp_ipsec_common`-level selector check | life of SAs (see the module's comment) |
| `Uma` | `src/ofp_uma.c` | ODP pools by contract |
| `Util` | `src/ofp_util.c`, hexadecimal parser of the CLI | `atoi` overflow |
| `Tcpopt` | `ofp_tcp_addoptions` (`src/ofp_tcp_output.c`), `tcp_dooptions` (`src/ofp_tcp_input.c`) | filling of the MD5 digest (not compiled in) |
| `Pcb` | `src/ofp_in_pcb.c` (lookups, bind, connect, port search, chains), their callers in `src/ofp_udp_usrreq.c`, `src/ofp_tcp_usrreq.c`, `src/ofp_tcp_syncache.c` | locks and reference counts; hash functions are parameters; IPv6 conflict rules; route lookup and source address choice by contract |
| `Fwd` | `src/ofp_pkt_processing.c` (IPv4 input, forwarding, output), `src/ofp_icmp.c` | tables, hooks, transports as oracles; VXLAN/GRE bodies; `ip_hl < 5`; segmented buffers; redirects |
| `Snd` | `src/ofp_tcp_output.c` (all passes), sender and state-machine side of `ofp_tcp_do_segment`, `tcp_usr_send`, `tcp_usrclosed`, rexmt/persist/delack/path-MTU handlers | option contents, congestion control and RTT (inputs), SACK scoreboard (input, see `Sack`), receive buffer (input, see `Tcp`), keep-alive, urgent pointer value, IPv6 |
| `Sock` | socket pool, listen queues, `ofp_socket`/`ofp_listen`/`ofp_accept`/`ofp_close` (`src/ofp_syscalls.c`, `src/ofp_uipc_socket.c`), reference handling of `src/ofp_tcp_usrreq.c`, `src/ofp_tcp_subr.c`, `src/ofp_tcp_timewait.c`, `syncache_socket` | buffers, sleeping, accept filters; protocol events come at any time |
| `Sleep` | `ofp_msleep`, `_ofp_wakeup`, `ofp_wakeup`, `ofp_wakeup_one`, `sleep_timeout` (`src/ofp_uipc_socket.c`), waiting loops of `ofp_accept`, `ofp_sbwait`, `ofp_select`, `ofp_epoll_wait`, `ofp_sowakeup` | failing timers; `so_error` in `ofp_accept`; one listening socket or buffer at a time |
| `Syncache` | `src/ofp_tcp_syncache.c` for IPv4 (all functions compiled in) | statistics, IPv6, IP options, the compiled-out timer; the digest is a function parameter; `ofp_sonewconn` and pcb work are one input (see `Sock`) |
| `Sad` | `src/ofp_ipsec_sad.c` except the translation of parameters for ODP and lookup by ODP handle; SA part of `src/ofp_ipsec.c` (destroy, completion event, flush, bind) | ODP's answers are inputs; critical sections are atomic |
| `Udp` | `ofp_udp_input`, `udp_append`, `udp_output`, `ofp_in_broadcast`, close (`src/ofp_udp_usrreq.c`), `ofp_sosend_dgram`, `ofp_soreceive_dgram` (`src/ofp_uipc_socket.c`), checksum insertion (`src/ofp_pkt_processing.c`), over the tables of `Pcb` | hooks, VXLAN, IPv6, control messages, waiting; one segment; multicast filters are parameters |
| `Avl` | `src/ofp_avl.c` except printing, verification, `avl_tree_new/free` and the high ends of spans; the rule table of `src/ofp_rt_mtrie_lookup.c` on top of it | locks (calls are atomic), the free list (a count), the unread `height` counter; rule key fields are part of the stored key |
| `Verif/Md5` | `src/ofp_md5c.c` (all), `ofp_tcp_new_isn` of `src/ofp_tcp_subr.c` | wiping of a local array |
| `Verif/Burst` | `src/ofp_pkt_send_burst.c` (all) | allocation failure, statistics, alignment of the table |
| `Rto` | `tcp_xmit_timer` and measurements (`src/ofp_tcp_input.c`), timing part of `ofp_tcp_timer_rexmt`, `ofp_tcp_timer_persist`, `ofp_tcp_timer_keep`, `ofp_tcp_timer_activate` (`src/ofp_tcp_timer.c`), `ofp_tcp_setpersist`, keep-alive options, all writes to the congestion window | signed overflow wraps; 2MSL timer; races between timers and cancellation; timers run out when due (served at any later time) |
| `Callout` | `callout_*` of `include/ofpi_callout.h`, short timers of `src/ofp_timer.c`, the heads of the timer functions in `src/ofp_tcp_timer.c` | `OFP_RSS` queues; the pool of timeout events separately from the pool of timers |
| `Tw` | `src/ofp_tcp_timewait.c` (all but header construction), `tcp_detach`, `tcp_usr_close`, `ofp_tcp_timer_2msl` | `nolocaltimewait` (no effect in the source), failures of packet allocation for answers |
| `Mcast` | `src/ofp_in_mcast.c`: all calls that change memberships or filters, the input filter, the merge into the group record, reference counts | parsing of option structures and interface lookup (done by the caller), getters, reports of IGMP themselves (only what they do to the record), growth of the arrays beyond the limit of 4095 |
| `Ip6` | `ofp_ipv6_processing`, `ipv6_transport_classifier`, `ofp_ip6_output` (`src/ofp_pkt_processing.c`), `src/ofp_icmp6.c` (input, error, reflect, notification), `src/ofp_nd6.c`, IPv6 part of `src/ofp_route.c`, `src/ofp_in6_cksum.c`, protocol table | UDP, TCP and GRE input, hooks, slow path, interfaces: oracles; one segment per packet; calls atomic; VRFs (ignored by the code), VXLAN |
| `Ifcfg` | IPv4 part of `ofp_config_interface_up_v4/add_ip_v4/del_ip_v4/up_local/down`, interface records, address lists and look-ups of `src/ofp_portconf.c`; `add_route`, `del_route` of `src/ofp_route.c` | GRE and VXLAN interfaces, IPv6 addresses, broadcast addresses, ARP references, slow path commands, exhaustion of the routing table, concurrent configuration |
| `Vxlan` | MAC table and encapsulation of `src/ofp_vxlan.c`, `src/ofp_gre.c`, tags in `ofp_send_frame` | VXLAN ARP of the tunnel, receive hooks, slow path, multi-segment packets; relaxed memory order (sequential consistency assumed); `ofp_ip_output_recurse` after encapsulation |
| `Pcb6` | `src/ofp_in6_pcb.c` (look-ups, bind, connect, disconnect, port choice), the address part of `udp6_*` (`src/ofp_udp6_usrreq.c`) and `tcp6_usr_bind/listen/connect` (`src/ofp_tcp_usrreq.c`), `syncache_socket` for IPv6 | scopes, flow labels, credentials, `ofp_in6_pcbnotify`, peers whose address ends in 32 zero bits, mapped addresses on stream sockets |
| `Igmp` | `igmp_v3_enqueue_group_record`, `igmp_v3_enqueue_filter_change`, the host state machine (`igmp_input_v*_query`, `_report`, `igmp_change_state`, `igmp_initial_join`, `igmp_final_leave`, `ofp_igmp_fasttimo` and what they call), `ofp_igmp_input` (`src/ofp_igmp.c`) | failures to allocate or to extend a packet; multi-segment packets; in the state machine: source-specific memberships, detaching of links, `IGIF_LOOPBACK`; other links (they share only flags) |
| `Sysctl` | `ofp_sysctl`, `ofp_sysctl_add_oid`, `sysctl_register_oid`, `name2oid`, `ofp_sysctl_find_oid`, `sysctl_root`, the handlers of numbers, strings, structures and times (`src/ofp_sysctl.c`) | handlers of other modules (`PROC`), `sysctl.name`, `sysctl.next`, `sysctl.oidfmt`, `sysctl.oiddescr`; contexts, removal and renaming of entries; the lock is given up while a handler runs |
| `Sockopt` | `ofp_setsockopt`, `ofp_getsockopt`, `ofp_sosetopt`, `ofp_sogetopt`, `ofp_tcp_ctloutput`, `ofp_udp_ctloutput`, the dispatch of `ofp_ip_ctloutput`, `ofp_sbreserve_locked`, `ofp_soreserve`, the options in `sonewconn` | multicast options (`Mcast`), what the options do elsewhere; calls on one socket are atomic; values of `bool`-like options as one `int` |
| `Cli` | `add_command`, `parse`, `find_next_*`, `int_ok`, `topname_ok`, `octet_ok`, `ip4addr_ok`, `ip4addr_get`, `ip6addr_ok`, `ofp_ip6addr_get`, `cli_read` (`src/cli/ofp_cli.c`); `f_alias_set`, `f_run_alias` (`src/cli/ofp_cli_alias.c`) | the functions of the other commands; names of aliases that are empty or spelt like a kind of parameter; the other checks of parameters (any function); what is sent to the client; the password; lines of more than 49 words; the buffer of 100 in `ip4addr_ok` |
| `Stat` | `ofp_perf_tmo`, `ofp_set_stat_flags` (`src/ofp_stat.c`) | latencies; the pointer to shared memory; calls are atomic; only the sum of the counters is taken modulo 2^64 |

## 5. Disagreements between the code and the properties

Each is proved on a concrete execution of the model; the theorem names are in the table of section 3.
The short forms:

* **Packet checksum (C03)**: with an offset beyond the first segment the segment pointer is not advanced.
* **IPv6 routing (C10, C11)**: a /128 prefix reads (and on insertion branches on) bit 128, past the address.
* **mtrie (C12, C13)**: default route, dangling tables after a delete, stale entries, failed additions that leave
  traces, crash on delete, leaks, 16-bit counters.
* **ARP (C15, C17, C51, C52)**: races between lookup and insertion; waiting packets are sent in reverse order, leaked on
  timeout and kept for ever when a route refers to the entry; manual entries can be removed.
* **Reassembly (C19-C21, C44-C47)**: the VRF is not part of the key; counters drift after timeouts; overlaps.
* **Fragmentation (C22-C24)**: non-termination for an MTU below header + 8; options.
* **Timers (C25, C26)**, **epoll (C27, C28)**, **select (C42)**: see the witnesses.
* **TCP receive path (C30)**: Ethernet padding enters the stream; FIN outside the window; a full 63-slot buffer
  drops acknowledged data.
* **SACK report (C61)**: overlap with queued data makes the report miss the tail of the segment.
* **IPsec (C36, C53-C56)**: iteration past two destroyed policies, double destroy, ANY address, ICMP selector bytes,
  DISCARD/BYPASS with bound SAs.
* **Memory zones (C40)**: zone index 32 accepted; allocation from a destroyed zone.
* **Sockets (C67, C68, C70, C72)**: IPv6-only sockets take IPv4 packets; `SO_REUSEPORT` never has an effect; `sendto`
  binds another address than it checked; two datagram sockets can get the same connection; disconnecting forgets
  the bound address.
* **IPv4 input (C75, C77-C79, C81, C82)**: pings and ICMP errors without a route back and datagrams to closed ports lose
  their buffer; a source of 0.0.0.0 is replaced without a new checksum; multicast sources are answered; ICMP errors
  copy the more-fragments flag, read the length in the wrong byte order and quote memory behind short packets; a
  short timestamp request is written beyond its end; 255.255.255.255 is forwarded.
* **TCP sender (C84, C86, C87, C89, C92, C93)**: with SACK, a pass that finds a hole and no room for it sends bytes from
  the wrong offset; a FIN sent as window probe moves `snd_nxt` below `snd_una`, after which uninitialised memory is sent;
  a byte written before the handshake completes is overtaken by the FIN; `snd_wnd` wraps below zero; the output loop
  never ends while the packet pool is empty or the route is gone (error returns are compiled out); a pure ACK or an
  empty pool leaves unsent data without any timer; an acknowledgement that finds no packet is forgotten.
* **Sockets (C95, C99)**: an `ofp_accept` that fails after taking a connection from the queue loses socket and control block
  for ever; closing a descriptor that is not open follows a null pointer (no `EBADF`).
* **Sleeping (C102, C103)**: a timeout wakes the last sleeper on its channel, not its owner (all of select and epoll share
  one channel); select and epoll check and sleep without a lock; data wakes them only if some thread ever blocked in a
  receive call on that buffer; disconnecting a listening socket can miss a thread in `ofp_accept`.
* **Half-open connections (C104-C106, C108, C109)**: without cookies every initial sequence number is 31415; with cookies the
  secrets are all zero at first, one of them until the second reseeding; a cookie of any age is revived by the next SYN
  of its bucket; cookies lose window scaling and small MSS values; any wrong ACK removes the entry it names; entries never
  time out; two SYNs at once make two entries; the VRF is not compared.
* C110: iterating past two destroyed SAs hands out a freed object (`sa_lifetime_violated`); C112: a destruction that failed in
  ODP can never be repeated (`failed_destroy_violated`), or leaks the object (`leak_violated`); C114: `ofp_ipsec_sp_bind` takes
  its reference after publishing the SA, so another thread can free it (`bind_race_violated`).
* **Datagram sockets (C117, C119, C120)**: the UDP length field is believed, so `ofp_recvfrom` returns memory behind the packet
  (longer than the packet, or below 8); the length test counts the Ethernet header, so ports may come from memory behind the
  packet; VRFs are never compared; a failed copy, a member without the sharing option, or a broadcast to a subnet deprive members.
* `avl_delete` of a key that is absent and greater than its last neighbour raises that node's rank although nothing was deducted; `avl_insert` does not undo the ranks when no node is left. Both corrupt access by position (`index_after_miss_violated`, `index_after_full_violated`); a range walk then follows a null pointer. `avl_iterate_index_range` with an empty range at the end follows a null pointer, too.
* `ofp_MD5Update`: `i + 63 < inputLen` wraps for inputs within 63 bytes of 4 GB; the loop then reads on beyond the input (`long_input_violated`).
* `ofp_tcp_new_isn`: the "secret" is the tick count of the first connection, the reading of random data being commented out (`isn_secret_violated`); a first connection during tick 0 leaves `isn_last_reseed` 0, so the next connection draws another secret and its number may be behind (`isn_first_tick_violated`).
* **TCP timers (C132-C138)**: after the fourth timeout in a row the next wait can be half as long (`backoff_violated`); without timestamps thirteen segments needing one retransmission each end a connection although all were acknowledged (`progress_dropped_violated`); every keep-alive time is cut to one minute, the probe count is ignored, very long idle times end the connection at once (`keepidle_violated`, `keepcnt_violated`, `keepidle_large_violated`); after 248 days of running, connections in use are dropped (`uptime_violated`); a single lost probe can end a connection with a closed window (`persist_single_loss_violated`); there is no congestion control (`timeout_no_reduction_violated`).
* **Connection timers (C140, C141)**: `callout_pending` is constantly 0, so a timer event already queued when the timer is set anew runs the function before the new time (`early_run_violated`); the handle a callout keeps after running may belong to another connection's timer, which is then cancelled instead and lost; with an empty pool the callout is marked active although nothing will run it.
* **TIME_WAIT (C142, C144)**: changing `net.inet.tcp.msl` reorders deadlines so entries stay too long or leave too early; `net.inet.tcp.maxtcptw` has no effect; with fewer than five TCP control blocks no entry exists at all; a bare ACK with the expected numbers is answered (the test `tlen == 0` at src/ofp_tcp_timewait.c:340 is inverted), so two ends in TIME_WAIT answer each other without end.
* `ofp_imo_multi_filter` (`src/ofp_in_mcast.c:457-460`) compares the state of the source with the mode of the filter: a source *blocked* in EXCLUDE mode is passed (C147).
* `inp_set_source_filters` skips the replacement if the list is empty (`src/ofp_in_mcast.c:2590-2629`): the old sources stay, in the new mode (C149); `imf_get_source` counts the old sources against the limit (C149).
* `inm_merge` undoes a failed merge starting from `nims`, which is not set (`src/ofp_in_mcast.c:1020-1033`); the 513th source of a group is such a failure (C150).
* `inp_join_group` leaves `IN_MULTI_LOCK` held if IGMP returns an error (`src/ofp_in_mcast.c:2170-2195`, both `goto`s; C152).
* `ofp_in_pcbfree` does not give up memberships (call commented out, `src/ofp_in_pcb.c:1042-1045`; C151).
* `inm_merge` decrements `iss_in` again when an empty INCLUDE membership is left, and does not increment it when such a membership gets a source again (`src/ofp_in_mcast.c:1046-1078`; C153).
* IPv6 extension headers: `ofp_icmp6_error` frees the packet and the classifier returns DROP, so it is freed again (C155); echo replies and next header 59 return PROCESSED without anyone owning the packet (C155).
* Neighbour discovery checks no hop limit, no target, no option type or length (`src/ofp_nd6.c`; C158, C159, C162); the Ethernet address of a gateway is stored at a host route for the gateway, never at the routes through it (C157).
* `ofp_ipv6_processing` compares only the last 8 bytes with the link-local address (C160) and never touches the hop limit (C161).
* `ofp_ip6_protox[]` has 256 entries and is indexed with `nxt` returned by the protocol, which is `OFP_IPPROTO_DONE` = 257 (C162).
* `ofp_icmp6_reflect` takes the source address of the outgoing interface although the request was for another address (C163).
* Waiting IPv6 packets are never timed out: 2048 to silent neighbours block resolution for ever (C165).
* Interface configuration (C166–C174): eight addresses on an interface make all of them irremovable (`ofp_ifnet_ip_remove` does nothing on a full list); prefix length 32 on a port overwrites the local host route; two addresses in a subnet share one route that goes with the first of them; `ofp_config_interface_up_v4` on a VLAN interface without address deletes 0.0.0.0/0; a refused `add_ip` deletes the routes of the owner of the address; `up_v4` ignores whether the address was stored; secondary addresses cannot be bound; `ofp_get_create_ifnet` writes to NULL when no VLAN record is free; `ofp_get_ifnet_match` with VLAN ignores the VRF; `ofp_delete_ifnet` leaves a freed record on the list of `bind`.
* Tunnels (C175–C186): `ofp_vxlan_set_mac_dst` does not reset `old_key`, so a MAC address whose home slot is taken is never learned; entries live two hours instead of one (the age is added twice); the 32-bit tick counter wraps; the all-zero MAC address is the mark of a free slot; the key is visible before the address; the VNI is truncated to 16 bits, network 0 and frames without VNI flag are taken; GRE flags are tested in the wrong byte order and its header is read at offset 20 even with IP options; on VLAN interfaces the destination MAC address of the rebuilt header is overwritten by the source; length fields wrap; a doubly tagged frame leaves an untagged interface with a tag.
* IPv6 sockets (C187–C194): `ofp_in_pcblookup_hash_locked` accepts blocks without `INP_IPV4` as last resort, so an IPv6-only socket gets IPv4 packets; `ofp_in6_pcbbind` clears `sin6_port` of the caller before using its own copy; `udp6_bind`/`udp6_connect` change `inp_vflag` before the call that may fail; `udp6_disconnect` ignores the result of the IPv4 disconnect, which clears only the last word of the peer.
* IGMPv3 reports (C195–C200): to take back an unused record header `igmp_v3_enqueue_filter_change` calls `odp_packet_pull_head` instead of shortening the packet, so a change of one kind is sent without its record header; `vt_nrecs` is not set there; the room in an existing packet is computed without `IGMP_LEADINGSPACE`; EXCLUDE lists are split; empty records are sent when the rest of the tree is not in the mode of the group.
* IGMP: `ofp_igmp_slowtimo` is never called, so a host never leaves the compatibility modes (C206); a query of version 2
  only makes a SLEEPING member AWAKENING, without timer (C201); a group left and joined again is stuck as NOT_MEMBER (C208);
  `IGMP_MANT` lacks the implied bit (C209); `ofp_igmp_input` takes `ip_len` for the length of the message (C210, C212), reads
  version 3 messages at `odp_packet_data + iphlen` (C211), and its first check frees the packet and has the caller free it
  again.
* **C213, C217, C218** (sysctl). Entries with equal numbers are accepted, and the name of the second then leads to the
  first; the length of a new string is compared as an `int`; `hz` is `unsigned long`, so every negative time is taken for
  a very long one.
* **C219, C221–C225, C227** (socket options). Four options can be set and not read; a time to linger is cut to `short`;
  a timeout is read without its microseconds and waited for modulo 2^32 microseconds; a short `OFP_SO_SETFIB` fails and
  sets VRF 0; TCP sockets accept every option they do not know; options of level UDP leave the lock of the socket held;
  accepted sockets adjust a buffer size that was set.
* **C228–C232, C234–C237** (command line). Words behind a complete command are ignored; a placeholder typed as shown is
  accepted, without a parameter; a command or alias that another begins with stops the program; parameters of 99
  characters or more overrun a buffer of 100; octets up to 999 and hexadecimal ones are accepted; `::` with seven groups is
  refused and two `::` are accepted; completion overruns the line of 200 and puts the rest of placeholders into it; the
  key for later lines first goes back; telnet commands of two bytes swallow a character; the delete key types `~`.
* **C238–C240** (aliases). An alias named like the beginning of another changes that one, and a line that begins with the
  name of an alias runs it even if it names a longer one; an alias of an alias is carried out with the next line; an
  empty command for an alias stops the program.
* **C241–C243** (packet rate). Threads whose number is not below the number of threads are not counted; switching the flag
  off and on starts a second timer for good, and two timers at the same time divide by zero.

## 6. Axioms

No axiom is declared. `#print axioms` over every theorem of MANIFEST.json gives a subset of
`propext, Classical.choice, Quot.sound`. No compiled evaluation is used anywhere.

## 7. Wrong programs

`seeded/LOG.jsonl` has one line per seeded bug: a definition of the model was edited in a scratch copy as a realistic
bug would change the C code, the project was rebuilt, and the theorems that failed were recorded. Survivors led to
stronger theorems (field `tightened`) or turned out to be equivalent programs.
