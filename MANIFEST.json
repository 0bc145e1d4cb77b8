{
 "claims": [
  {
   "property": "C01",
   "status": "partial",
   "theorems": [
    "Verif.Cksum.ofp_cksum_buffer_partial",
    "Verif.Cksum.ofp_cksum_buffer_local",
    "Verif.Cksum.ofp_cksum_buffer_violated"
   ],
   "note": "Proved for every buffer up to 262143 bytes (every caller in the code base) at every alignment; the full claim for any length is false, with a 262152-byte witness."
  },
  {
   "property": "C02",
   "status": "proved",
   "theorems": [
    "Verif.Cksum.ofp_cksum_iph_correct",
    "Verif.Cksum.ofp_cksum_iph_fill_verifies",
    "Verif.Cksum.ofp_cksum_iph_detects"
   ],
   "note": "All header lengths 5..15 words, both alignments."
  },
  {
   "property": "C03",
   "status": "partial",
   "theorems": [
    "Verif.Cksum.ofp_cksum_partial",
    "Verif.Cksum.ofp_cksum_offset_violated",
    "Verif.Cksum.ofp_cksum_trailer_violated",
    "Verif.Cksum.ofp_cksum_loop_violated"
   ],
   "note": "True when the range starts in the first segment and ends inside it, at a segment boundary or at the packet end; false otherwise (three witnesses)."
  },
  {
   "property": "C04",
   "status": "proved",
   "theorems": [
    "Verif.Cksum.forward_keeps_checksum_valid",
    "Verif.Cksum.forward_then_verify"
   ],
   "note": ""
  },
  {
   "property": "C05",
   "status": "proved",
   "theorems": [
    "Verif.Radix.lookup_is_lpm"
   ],
   "note": ""
  },
  {
   "property": "C06",
   "status": "proved",
   "theorems": [
    "Verif.Radix.failed_add_changes_nothing"
   ],
   "note": ""
  },
  {
   "property": "C07",
   "status": "proved",
   "theorems": [
    "Verif.Radix.nodes_conserved",
    "Verif.Radix.nodes6_conserved",
    "Verif.Radix.delete_result",
    "Verif.Radix.destroy_exact"
   ],
   "note": ""
  },
  {
   "property": "C08",
   "status": "proved",
   "theorems": [
    "Verif.Radix.listing_exact",
    "Verif.Radix.listing6_exact"
   ],
   "note": "IPv4 and IPv6."
  },
  {
   "property": "C09",
   "status": "partial",
   "theorems": [
    "Verif.Radix.exact_query_partial",
    "Verif.Radix.exact_query_violated",
    "Verif.Radix.exact_query_stale_violated"
   ],
   "note": "Stored routes are found; routes that are not stored may be \"found\" too (two witnesses)."
  },
  {
   "property": "C10",
   "status": "proved",
   "theorems": [
    "Verif.Radix.lookup6_is_lpm",
    "Verif.Radix.ops6_results"
   ],
   "note": ""
  },
  {
   "property": "C11",
   "status": "partial",
   "theorems": [
    "Verif.Radix.lookup6_in_bounds_partial",
    "Verif.Radix.insert6_in_bounds_partial",
    "Verif.Radix.lookup6_oob_violated",
    "Verif.Radix.insert6_oob_violated",
    "Verif.Radix.traverse6_oob_violated"
   ],
   "note": "In bounds while no /128 route is stored; with /128 routes byte 16 is touched (three witnesses)."
  },
  {
   "property": "C12",
   "status": "partial",
   "theorems": [
    "Verif.Mtrie.mtrie_lpm_partial",
    "Verif.Mtrie.mtrie_add_succeeds",
    "Verif.Mtrie.mtrie_default_route_violated",
    "Verif.Mtrie.mtrie_dangling_table_violated",
    "Verif.Mtrie.mtrie_stale_element_violated",
    "Verif.Mtrie.mtrie_failed_add_violated",
    "Verif.Mtrie.mtrie_full_rules_violated"
   ],
   "note": "Longest prefix match holds after every history of fair calls (lengths 1..32, additions that find room, deletions after which another long route stays in the same /16 and /24, fewer than 21846 calls). Outside it is false: five witnesses."
  },
  {
   "property": "C13",
   "status": "partial",
   "theorems": [
    "Verif.Mtrie.mtrie_delete_safe_partial",
    "Verif.Mtrie.mtrie_delete_crash_violated",
    "Verif.Mtrie.mtrie_delete_after_failure_crash_violated",
    "Verif.Mtrie.mtrie_leak_violated"
   ],
   "note": "Safe for the fair calls of C12; in general a deletion can dereference a null pointer, and tables leak (witnesses)."
  },
  {
   "property": "C14",
   "status": "proved",
   "theorems": [
    "Verif.Radix.vrf_isolation"
   ],
   "note": ""
  },
  {
   "property": "C15",
   "status": "partial",
   "theorems": [
    "Verif.Arp.arp_lookup_partial",
    "Verif.Arp.arp_lookup_stable",
    "Verif.Arp.arp_lookup_race_violated",
    "Verif.Arp.arp_lookup_stuck_violated"
   ],
   "note": "Holds for every history without two races between halves of one caller (add_route lookup/insert, output get-MAC/save); with them a complete entry gets MAC 0, or lookups fail depending on the cache (witnesses)."
  },
  {
   "property": "C16",
   "status": "proved",
   "theorems": [
    "Verif.Arp.arp_conserved",
    "Verif.Arp.arp_insert_refused_iff"
   ],
   "note": ""
  },
  {
   "property": "C17",
   "status": "partial",
   "theorems": [
    "Verif.Arp.waiting_sent_once",
    "Verif.Arp.waiting_sent_all_partial",
    "Verif.Arp.resolution_sends",
    "Verif.Arp.waiting_order_reversed",
    "Verif.Arp.waiting_order_violated",
    "Verif.Arp.waiting_timeout_leak_violated",
    "Verif.Arp.waiting_timeout_held_violated"
   ],
   "note": "Sent at most once, to the right address, and all of them if no timeout or route deletion intervenes; but always in reverse order, leaked on timeout, and kept for ever when a route refers to the entry (witnesses and general theorems)."
  },
  {
   "property": "C18",
   "status": "proved",
   "theorems": [
    "Verif.Arp.referenced_stays",
    "Verif.Arp.ageing_exact",
    "Verif.Arp.manual_not_aged",
    "Verif.Arp.lookup_refreshes"
   ],
   "note": ""
  },
  {
   "property": "C19",
   "status": "proved",
   "theorems": [
    "Verif.Reass.reassembly_sound"
   ],
   "note": ""
  },
  {
   "property": "C20",
   "status": "proved",
   "theorems": [
    "Verif.Reass.reassembly_completes"
   ],
   "note": "2 to 17 fragments (the documented limit plus one), before the timeout."
  },
  {
   "property": "C21",
   "status": "partial",
   "theorems": [
    "Verif.Reass.queue_count_partial",
    "Verif.Reass.stuck_forever",
    "Verif.Reass.reassembly_survives_violated"
   ],
   "note": "The counter never falls below the number of queues, but timed-out queues are never subtracted: after 1025 incomplete datagrams reassembly stops for ever (witness)."
  },
  {
   "property": "C22",
   "status": "proved",
   "theorems": [
    "Verif.Frag.fragmentation_faithful",
    "Verif.Frag.cut_concat"
   ],
   "note": "For MTU >= header + 8 and well-formed options."
  },
  {
   "property": "C23",
   "status": "proved",
   "theorems": [
    "Verif.Frag.fragment_reassemble"
   ],
   "note": "Up to 17 fragments."
  },
  {
   "property": "C24",
   "status": "partial",
   "theorems": [
    "Verif.Frag.fragmentation_terminates_partial",
    "Verif.Frag.options_terminate",
    "Verif.Frag.fragmentation_terminates_violated",
    "Verif.Frag.fragmentation_small_mtu_violated",
    "Verif.Frag.fragmentation_tiny_mtu_violated"
   ],
   "note": "Terminates when no option has length 0 and the MTU is at least header + 8; otherwise it does not (witnesses for every payload)."
  },
  {
   "property": "C25",
   "status": "proved",
   "theorems": [
    "Verif.Timer.long_timer_fires_once",
    "Verif.Timer.timer_buffers_conserved",
    "Verif.Timer.too_long_timer_violated"
   ],
   "note": "For 10 <= s <= 8192 as stated (up to 2^50 long timers started); the witness shows that longer timeouts, which the code accepts, fire early."
  },
  {
   "property": "C26",
   "status": "proved",
   "theorems": [
    "Verif.Timer.cancel_exact",
    "Verif.Timer.handles_distinct",
    "Verif.Timer.timer_buffers_conserved"
   ],
   "note": "Up to 2^50 long timers started (identifier counter)."
  },
  {
   "property": "C27",
   "status": "partial",
   "theorems": [
    "Verif.Epoll.ctl_is_map_partial",
    "Verif.Epoll.ctl_badfd_violated"
   ],
   "note": "Full map behaviour proved for any history, provided the socket getter detects invalid descriptors; the real getter never does (witness)."
  },
  {
   "property": "C28",
   "status": "partial",
   "theorems": [
    "Verif.Epoll.wait_reports_ready",
    "Verif.Epoll.wait_errors",
    "Verif.Epoll.wait_long_timeout_violated"
   ],
   "note": "Proved for all timeouts up to 2147483 ms; beyond, the code has undefined behaviour (witness)."
  },
  {
   "property": "C29",
   "status": "proved",
   "theorems": [
    "Verif.Tcp.seq_compare",
    "Verif.Tcp.seq_laws"
   ],
   "note": ""
  },
  {
   "property": "C30",
   "status": "partial",
   "theorems": [
    "Verif.Tcp.stream_exact_partial",
    "Verif.Tcp.stream_progress",
    "Verif.Tcp.demo_run",
    "Verif.Tcp.padding_delivered_violated",
    "Verif.Tcp.acked_data_lost_violated",
    "Verif.Tcp.window_wraps_violated"
   ],
   "note": "Exact for any order, duplication and overlap, across wrap-around, and with progress, if frames carry no padding and the 63 buffer slots suffice for what is queued; false otherwise (witnesses)."
  },
  {
   "property": "C31",
   "status": "partial",
   "theorems": [
    "Verif.Tcp.queue_bounded",
    "Verif.Tcp.packets_conserved",
    "Verif.Tcp.read_conserved",
    "Verif.Tcp.flush_leaks_violated"
   ],
   "note": "Bound proved for arbitrary segments, conservation while connected; closing leaks every queued packet (proved for every non-empty queue)."
  },
  {
   "property": "C32",
   "status": "proved",
   "theorems": [
    "Verif.Sack.sack_report"
   ],
   "note": "Truthfulness is stated until the peer FIN is received (after it no more data are accepted)."
  },
  {
   "property": "C33",
   "status": "proved",
   "theorems": [
    "Verif.Sack.scoreboard_shape",
    "Verif.Sack.ack_una",
    "Verif.Sack.scoreboard_acked",
    "Verif.Sack.scoreboard_limit"
   ],
   "note": "Sequence space outstanding below 2^31. The SACKed-bytes part excludes ACKs about 2^31 old (Recent) and allocation failure."
  },
  {
   "property": "C34",
   "status": "partial",
   "theorems": [
    "Verif.Sockbuf.sockbuf_is_queue",
    "Verif.Sockbuf.sockbuf_bytes",
    "Verif.Sockbuf.sockbuf_counter_partial",
    "Verif.Sockbuf.sockbuf_counter_violated"
   ],
   "note": "The ring is a queue; the byte counter is exact except after a flush (witness)."
  },
  {
   "property": "C35",
   "status": "proved",
   "theorems": [
    "Verif.Ipsec.lookup_decides",
    "Verif.Ipsec.decides_unique",
    "Verif.Ipsec.inbound_decision"
   ],
   "note": ""
  },
  {
   "property": "C36",
   "status": "partial",
   "theorems": [
    "Verif.Ipsec.policy_calls_exact",
    "Verif.Ipsec.policy_lifetime_partial",
    "Verif.Ipsec.policy_distinct_partial",
    "Verif.Ipsec.policy_info_partial",
    "Verif.Ipsec.policy_lifetime_violated"
   ],
   "note": "Holds for every history in which iteration steps past a destroyed policy only if no other policy was destroyed since (and reference counters do not reach 2^32); without that restriction a database policy ends up in the free pool (witness)."
  },
  {
   "property": "C37",
   "status": "proved",
   "theorems": [
    "Verif.Util.ifname_roundtrip",
    "Verif.Util.ifname_injective"
   ],
   "note": ""
  },
  {
   "property": "C38",
   "status": "proved",
   "theorems": [
    "Verif.Util.mask6_exact",
    "Verif.Util.mask_length_exact"
   ],
   "note": ""
  },
  {
   "property": "C39",
   "status": "proved",
   "theorems": [
    "Verif.Util.link_local_exact",
    "Verif.Util.link_local_injective"
   ],
   "note": ""
  },
  {
   "property": "C40",
   "status": "partial",
   "theorems": [
    "Verif.Uma.objects_apart",
    "Verif.Uma.calls_defined",
    "Verif.Uma.zone_conserved",
    "Verif.Uma.contents_kept",
    "Verif.Uma.alloc_fresh",
    "Verif.Uma.zone_range_partial",
    "Verif.Uma.zone_range_violated",
    "Verif.Uma.zone_destroyed_violated"
   ],
   "note": "Only the range check of destroy is wrong: zone 32 is accepted and reads past the array; allocation from a destroyed zone is not refused (witnesses)."
  },
  {
   "property": "C41",
   "status": "partial",
   "theorems": [
    "Verif.Cksum.ofp_in4_cksum_partial"
   ],
   "note": "Inherits the segment-boundary restriction of C03."
  },
  {
   "property": "C42",
   "status": "partial",
   "theorems": [
    "Verif.Select.select_exact",
    "Verif.Select.fd_sets",
    "Verif.Select.select_blocking_partial",
    "Verif.Select.select_long_timeout_violated"
   ],
   "note": "Everything proved but the blocking condition for timeouts of 2^32 us and more, which is false (witness)."
  },
  {
   "property": "C43",
   "status": "partial",
   "theorems": [
    "Verif.Util.hex_to_num_exact",
    "Verif.Util.hex_digits",
    "Verif.Util.hex_to_num_violated"
   ],
   "note": "Exact for values that fit in an int; eight-digit values from 80000000 on are undefined behaviour (witness)."
  },
  {
   "property": "C44",
   "status": "partial",
   "theorems": [
    "Verif.Reass.stored_fragments_partial",
    "Verif.Reass.stored_fragments_violated"
   ],
   "note": "Holds as long as no malformed fragment arrives; with malformed ones the limit is void (witness)."
  },
  {
   "property": "C45",
   "status": "partial",
   "theorems": [
    "Verif.Reass.queues_expire",
    "Verif.Reass.queue_lives_partial",
    "Verif.Reass.queue_lives_violated"
   ],
   "note": "Upper bound proved for every state; the lower bound fails when a fragment becomes the new head of the queue (its TTL field is not initialised)."
  },
  {
   "property": "C46",
   "status": "partial",
   "theorems": [
    "Verif.Reass.vrf_reassembly_partial",
    "Verif.Reass.vrf_reassembly_violated"
   ],
   "note": "The code ignores the VRF: true only if VRFs never share identification fields (witness of mixing)."
  },
  {
   "property": "C47",
   "status": "partial",
   "theorems": [
    "Verif.Reass.reassembly_duplicates_partial",
    "Verif.Reass.reassembly_overlap_violated"
   ],
   "note": "Proved for repeated pieces; overlapping pieces can cover the datagram without it being delivered (witness)."
  },
  {
   "property": "C48",
   "status": "partial",
   "theorems": [
    "Verif.Sockbuf.peek_partial",
    "Verif.Sockbuf.peek_violated",
    "Verif.Sockbuf.peek_hangs_violated"
   ],
   "note": "Holds while the request lies within the first packet; otherwise the first packet is repeated, or the loop never ends (witnesses)."
  },
  {
   "property": "C49",
   "status": "proved",
   "theorems": [
    "Verif.Sockbuf.dgram_recv"
   ],
   "note": ""
  },
  {
   "property": "C50",
   "status": "partial",
   "theorems": [
    "Verif.Tcp.stream_exact_partial",
    "Verif.Tcp.early_eof_violated"
   ],
   "note": "Holds while the FIN lies inside the window (last conjunct); false when the window cuts the segment (witness)."
  },
  {
   "property": "C51",
   "status": "partial",
   "theorems": [
    "Verif.Arp.route_gateway_partial",
    "Verif.Arp.route_refcount",
    "Verif.Arp.route_race_violated"
   ],
   "note": "Proved when the ARP half of add_route is atomic; false if the ageing timer runs in between (witness)."
  },
  {
   "property": "C52",
   "status": "partial",
   "theorems": [
    "Verif.Arp.manual_stays_partial",
    "Verif.Arp.manual_route_violated",
    "Verif.Arp.manual_stale_timer_violated"
   ],
   "note": "Only a dropped route reference, a removal by index or a (possibly stale) saved-packet timer can remove it - and they do (witnesses)."
  },
  {
   "property": "C53",
   "status": "partial",
   "theorems": [
    "Verif.Ipsec.destroy_once_partial",
    "Verif.Ipsec.destroy_twice_violated"
   ],
   "note": "The first destroy is exact; a second one rewires the lookup list into a cycle (witness: lookup never ends)."
  },
  {
   "property": "C54",
   "status": "partial",
   "theorems": [
    "Verif.Ipsec.any_address_partial",
    "Verif.Ipsec.any_address_violated"
   ],
   "note": "The code has no ANY case: the range 0..0 covers only address 0 (witness)."
  },
  {
   "property": "C55",
   "status": "partial",
   "theorems": [
    "Verif.Ipsec.selector_match_partial",
    "Verif.Ipsec.icmp_match_violated"
   ],
   "note": "Exact for packets other than ICMP; the ICMP rule reads the wrong bytes (ip_hl not multiplied by 4), refusing right and accepting wrong packets (witnesses)."
  },
  {
   "property": "C56",
   "status": "partial",
   "theorems": [
    "Verif.Ipsec.outbound_decision_partial",
    "Verif.Ipsec.outbound_decision_violated"
   ],
   "note": "Holds when SAs are bound only to PROTECT policies; otherwise a DISCARD packet leaks the processing lock and a BYPASS packet is encrypted (witnesses)."
  },
  {
   "property": "C57",
   "status": "proved",
   "theorems": [
    "Verif.Ipsec.flush_exact"
   ],
   "note": "Without interference by other threads during the flush, starting when no create or destroy is half done."
  },
  {
   "property": "C58",
   "status": "proved",
   "theorems": [
    "Verif.Sack.missing_kept",
    "Verif.Sack.ack_exact",
    "Verif.Sack.holes_exact"
   ],
   "note": ""
  },
  {
   "property": "C59",
   "status": "proved",
   "theorems": [
    "Verif.Sack.next_hole",
    "Verif.Sack.rexmit_mark"
   ],
   "note": ""
  },
  {
   "property": "C60",
   "status": "proved",
   "theorems": [
    "Verif.Sack.adjust_safe"
   ],
   "note": ""
  },
  {
   "property": "C61",
   "status": "partial",
   "theorems": [
    "Verif.Sack.sack_first_partial",
    "Verif.Sack.sack_first_violated"
   ],
   "note": "Holds if no byte of the segment was queued; otherwise the report starts at the original sequence number with the trimmed length and misses the tail (witness)."
  },
  {
   "property": "C62",
   "status": "proved",
   "theorems": [
    "Verif.Tcpopt.reader_total",
    "Verif.Tcpopt.reader_meaning",
    "Verif.Tcpopt.area_unique"
   ],
   "note": ""
  },
  {
   "property": "C63",
   "status": "proved",
   "theorems": [
    "Verif.Tcpopt.sacks_bounded"
   ],
   "note": ""
  },
  {
   "property": "C64",
   "status": "proved",
   "theorems": [
    "Verif.Tcpopt.writer_bounds"
   ],
   "note": ""
  },
  {
   "property": "C65",
   "status": "proved",
   "theorems": [
    "Verif.Tcpopt.syn_roundtrip"
   ],
   "note": ""
  },
  {
   "property": "C66",
   "status": "proved",
   "theorems": [
    "Verif.Tcpopt.data_roundtrip",
    "Verif.Tcpopt.sack_with_ts_and_sig_violated"
   ],
   "note": "The comment in the code counts on one SACK block behind timestamps and signature; the padding leaves room for none (second theorem). TCP_SIGNATURE is not compiled in."
  },
  {
   "property": "C67",
   "status": "partial",
   "theorems": [
    "Verif.Pcb.delivery_exact",
    "Verif.Pcb.delivery_partial",
    "Verif.Pcb.delivery_violated"
   ],
   "note": "Exact for every history and hash function; the wildcard classes ignore the address family, so an IPv6-only socket takes IPv4 packets (witness)."
  },
  {
   "property": "C68",
   "status": "partial",
   "theorems": [
    "Verif.Pcb.bind_exact",
    "Verif.Pcb.reuseport_violated",
    "Verif.Pcb.sendto_bind_violated"
   ],
   "note": "Explicit bind is exact except that SO_REUSEPORT never permits sharing (proved for every reachable state: the flag it looks at is never set); sendto commits another address than the one it found free (witness: the answer goes to another socket)."
  },
  {
   "property": "C69",
   "status": "proved",
   "theorems": [
    "Verif.Pcb.ephemeral_bind",
    "Verif.Pcb.ephemeral_connect",
    "Verif.Pcb.ephemeral_sendto"
   ],
   "note": ""
  },
  {
   "property": "C70",
   "status": "partial",
   "theorems": [
    "Verif.Pcb.connection_unique_partial",
    "Verif.Pcb.connection_unique_violated"
   ],
   "note": "Holds for all TCP histories and for datagram sockets bound before connect or without reuse options; otherwise two sockets get the same connection (witness)."
  },
  {
   "property": "C71",
   "status": "proved",
   "theorems": [
    "Verif.Pcb.failed_call_same",
    "Verif.Pcb.rebind_refused"
   ],
   "note": ""
  },
  {
   "property": "C72",
   "status": "partial",
   "theorems": [
    "Verif.Pcb.disconnect_violated"
   ],
   "note": "The port is kept; the local address is always forgotten (proved for every disconnect)."
  },
  {
   "property": "C73",
   "status": "proved",
   "theorems": [
    "Verif.Pcb.close_releases"
   ],
   "note": ""
  },
  {
   "property": "C74",
   "status": "proved",
   "theorems": [
    "Verif.Fwd.buffers_used_at_most_once"
   ],
   "note": ""
  },
  {
   "property": "C75",
   "status": "partial",
   "theorems": [
    "Verif.Fwd.no_buffer_lost_partial",
    "Verif.Fwd.received_buffer_not_lost_partial",
    "Verif.Fwd.ping_without_route_lost_violated",
    "Verif.Fwd.expired_without_route_leaks_violated",
    "Verif.Fwd.closed_port_lost_violated"
   ],
   "note": "Holds when every route exists, output succeeds and the packet is no datagram to a closed port; violated otherwise (three families of witnesses: buffers neither sent nor freed)."
  },
  {
   "property": "C76",
   "status": "proved",
   "theorems": [
    "Verif.Fwd.forwarded_packet",
    "Verif.Fwd.transit_forwarded",
    "Verif.Fwd.transit_expired"
   ],
   "note": "The route itself is an oracle here; C05 and C12 are about the lookup."
  },
  {
   "property": "C77",
   "status": "partial",
   "theorems": [
    "Verif.Fwd.sent_within_mtu",
    "Verif.Fwd.transit_needfrag",
    "Verif.Fwd.frag_needed_partial",
    "Verif.Fwd.sent_headers_valid_partial",
    "Verif.Fwd.zero_source_checksum_violated"
   ],
   "note": "Checksum part excludes packets in transit with source 0.0.0.0, which get a new source without a new checksum (witness)."
  },
  {
   "property": "C78",
   "status": "partial",
   "theorems": [
    "Verif.Fwd.no_error_about_errors",
    "Verif.Fwd.no_icmp_recursion",
    "Verif.Fwd.error_to_multicast_violated"
   ],
   "note": "Packets with multicast or broadcast source are answered (witness)."
  },
  {
   "property": "C79",
   "status": "partial",
   "theorems": [
    "Verif.Fwd.icmp_error_packet",
    "Verif.Fwd.icmp_error_content_partial",
    "Verif.Fwd.time_exceeded_partial",
    "Verif.Fwd.error_copies_mf_violated",
    "Verif.Fwd.error_quotes_wrong_bytes_violated",
    "Verif.Fwd.error_leaks_memory_violated"
   ],
   "note": "Quoted bytes right when the length field read in the wrong byte order is at least hlen+8 and the packet has 8 bytes of data; flags are copied, wrong bytes or memory behind the packet quoted otherwise (witnesses)."
  },
  {
   "property": "C80",
   "status": "proved",
   "theorems": [
    "Verif.Fwd.echo_reply"
   ],
   "note": "For messages that fit the MTU and when the reply is not held up by hooks, policy, ARP (hypothesis Leaves)."
  },
  {
   "property": "C81",
   "status": "partial",
   "theorems": [
    "Verif.Fwd.no_access_outside_partial",
    "Verif.Fwd.short_timestamp_violated"
   ],
   "note": "Needs 2*hlen+16 bytes from the IP header on and enough data for ICMP; a short timestamp request is written beyond its end (all such packets)."
  },
  {
   "property": "C82",
   "status": "partial",
   "theorems": [
    "Verif.Fwd.local_not_forwarded_partial",
    "Verif.Fwd.directed_broadcast_dropped",
    "Verif.Fwd.limited_broadcast_forwarded_violated"
   ],
   "note": "255.255.255.255 is forwarded along the default route (witness)."
  },
  {
   "property": "C83",
   "status": "proved",
   "theorems": [
    "Verif.Fwd.header_check",
    "Verif.Fwd.corrupt_header_dropped"
   ],
   "note": "ip_hl < 5 is not represented."
  },
  {
   "property": "C84",
   "status": "partial",
   "theorems": [
    "Verif.Snd.sent_bytes_before_close",
    "Verif.Snd.sent_bytes_faithful_partial",
    "Verif.Snd.sent_bytes_sack_partial",
    "Verif.Snd.sent_bytes_sack_violated",
    "Verif.Snd.sent_bytes_handshake_violated"
   ],
   "note": "Full without SACK until the application closes; after close as long as no FIN goes out as a window probe; with SACK as long as no pass finds a hole it has no room for. Each exception has a witness (wrong bytes sent); besides, a handshake with an allocation failure sends one uninitialised byte."
  },
  {
   "property": "C85",
   "status": "partial",
   "theorems": [
    "Verif.Snd.buffer_released_by_ack",
    "Verif.Snd.buffer_is_unacked_tail_partial"
   ],
   "note": "The step property is unconditional; the second (what is in the buffer is the tail of the stream behind snd_una) needs: no SACK, no FIN as window probe."
  },
  {
   "property": "C86",
   "status": "partial",
   "theorems": [
    "Verif.Snd.fin_only_after_close",
    "Verif.Snd.fin_at_end_partial",
    "Verif.Snd.fin_wait2_all_acked_partial",
    "Verif.Snd.fin_at_end_violated",
    "Verif.Snd.fin_probe_violated"
   ],
   "note": "Never before close: unconditional. Position: without SACK and FIN probes; violated for data handed over before the handshake completes and for FIN probes (witnesses)."
  },
  {
   "property": "C87",
   "status": "partial",
   "theorems": [
    "Verif.Snd.pass_within_windows",
    "Verif.Snd.sent_within_window",
    "Verif.Snd.hist_within_window",
    "Verif.Snd.window_update",
    "Verif.Snd.reply_within_window_partial",
    "Verif.Snd.hist_reply_within_window_partial",
    "Verif.Snd.reply_within_window_violated"
   ],
   "note": "Without SACK; replies to segments only when everything in flight lies in the window: otherwise snd_wnd is reduced below zero and wraps (witness)."
  },
  {
   "property": "C88",
   "status": "proved",
   "theorems": [
    "Verif.Snd.ends_only_for_reason",
    "Verif.Snd.reset_ends"
   ],
   "note": ""
  },
  {
   "property": "C89",
   "status": "partial",
   "theorems": [
    "Verif.Snd.output_returns_partial",
    "Verif.Snd.send_returns_partial",
    "Verif.Snd.output_returns_violated",
    "Verif.Snd.output_no_route_violated"
   ],
   "note": "Holds when every allocation and IP output succeeds; otherwise the loop goes on while the failure lasts (proved for every number of passes)."
  },
  {
   "property": "C90",
   "status": "proved",
   "theorems": [
    "Verif.Snd.state_follows_protocol",
    "Verif.Snd.state_fixed",
    "Verif.Snd.established_from_handshake"
   ],
   "note": ""
  },
  {
   "property": "C91",
   "status": "proved",
   "theorems": [
    "Verif.Snd.timers_exclusive"
   ],
   "note": ""
  },
  {
   "property": "C92",
   "status": "partial",
   "theorems": [
    "Verif.Snd.data_covered_partial",
    "Verif.Snd.loop_covered",
    "Verif.Snd.shrunk_window_covered",
    "Verif.Snd.data_covered_violated",
    "Verif.Snd.data_covered_pool_violated"
   ],
   "note": "Holds unless the last segment of a call is a pure acknowledgement or allocation fails (witnesses for both)."
  },
  {
   "property": "C93",
   "status": "partial",
   "theorems": [
    "Verif.Snd.timer_acks_partial",
    "Verif.Snd.text_acked_partial",
    "Verif.Snd.nothing_owed_after_send",
    "Verif.Snd.trimmed_exactly",
    "Verif.Snd.text_acked_violated"
   ],
   "note": "Needs a packet; an acknowledgement that found the pool empty is forgotten (witness)."
  },
  {
   "property": "C94",
   "status": "proved",
   "theorems": [
    "Verif.Sock.descriptors_unique"
   ],
   "note": ""
  },
  {
   "property": "C95",
   "status": "partial",
   "theorems": [
    "Verif.Sock.accounted",
    "Verif.Sock.one_place",
    "Verif.Sock.released_partial",
    "Verif.Sock.failed_accept_violated"
   ],
   "note": "An ofp_accept that fails after it took the connection (peer has reset or closed it) loses socket and control block for ever (proved for every such call and every continuation)."
  },
  {
   "property": "C96",
   "status": "proved",
   "theorems": [
    "Verif.Sock.accept_fifo",
    "Verif.Sock.accept_order"
   ],
   "note": ""
  },
  {
   "property": "C97",
   "status": "proved",
   "theorems": [
    "Verif.Sock.backlog_bound",
    "Verif.Sock.backlog_max"
   ],
   "note": "The bound of the code is 3q/2 established plus q+1 incomplete connections."
  },
  {
   "property": "C98",
   "status": "proved",
   "theorems": [
    "Verif.Sock.closed_clean",
    "Verif.Sock.abort_ends"
   ],
   "note": ""
  },
  {
   "property": "C99",
   "status": "partial",
   "theorems": [
    "Verif.Sock.no_crash",
    "Verif.Sock.bad_descriptor_violated"
   ],
   "note": "Holds as long as the application uses only descriptors it holds; ofp_close of any other follows a null pointer instead of returning EBADF."
  },
  {
   "property": "C100",
   "status": "proved",
   "theorems": [
    "Verif.Sleep.records_conserved",
    "Verif.Sleep.run_refines",
    "Verif.Sleep.step_refines"
   ],
   "note": ""
  },
  {
   "property": "C101",
   "status": "proved",
   "theorems": [
    "Verif.Sleep.returns_when_woken",
    "Verif.Sleep.wake_exact",
    "Verif.Sleep.wake_one_exact",
    "Verif.Sleep.wakeup_call"
   ],
   "note": ""
  },
  {
   "property": "C102",
   "status": "partial",
   "theorems": [
    "Verif.Sleep.timeout_exact_partial",
    "Verif.Sleep.timeout_violated",
    "Verif.Sleep.late_timer_violated"
   ],
   "note": "Holds while no two threads sleep on one channel; all calls of ofp_select and ofp_epoll_wait share the null channel, and there a timer wakes the thread that went to sleep last."
  },
  {
   "property": "C103",
   "status": "partial",
   "theorems": [
    "Verif.Sleep.accept_no_lost_wakeup",
    "Verif.Sleep.accept_at_rest",
    "Verif.Sleep.read_no_lost_wakeup",
    "Verif.Sleep.lock_exclusive",
    "Verif.Sleep.select_lost_wakeup_violated",
    "Verif.Sleep.select_data_violated",
    "Verif.Sleep.accept_close_violated"
   ],
   "note": "Proved for connections in ofp_accept and for data and end of stream in the receive calls. Violated for ofp_select and ofp_epoll_wait (check and sleep are not atomic; data at a buffer nobody ever blocked on wakes nobody) and for disconnecting a socket in ofp_accept. The so_error exit of ofp_accept is not modelled."
  },
  {
   "property": "C104",
   "status": "partial",
   "theorems": [
    "Verif.Syncache.conn_needs_answer_partial",
    "Verif.Syncache.forge",
    "Verif.Syncache.forged_violated",
    "Verif.Syncache.forged_later_violated",
    "Verif.Syncache.isn_known_violated"
   ],
   "note": "Proved: the ACK matches a SYN|ACK that was sent, or a cookie under one of the two secrets. Violated as to what can be known: without cookies the number is always 31415; with cookies both secrets are zero at first and one of them stays zero until the second reseeding of a bucket."
  },
  {
   "property": "C105",
   "status": "partial",
   "theorems": [
    "Verif.Syncache.cookie_honoured_partial",
    "Verif.Syncache.cookie_expires_partial",
    "Verif.Syncache.stale_cookie_violated"
   ],
   "note": "Honoured for 16 seconds in every run (window scales at most 14, payload of the timestamp not zero). Refused when the bucket was idle for 32 seconds, but the next SYN of the bucket revives cookies of any age."
  },
  {
   "property": "C106",
   "status": "partial",
   "theorems": [
    "Verif.Syncache.options_agree",
    "Verif.Syncache.cookie_honoured_partial",
    "Verif.Syncache.scale_least",
    "Verif.Syncache.lost_scale_violated",
    "Verif.Syncache.small_mss_violated"
   ],
   "note": "Proved for connections from the cache and for cookies with a timestamp. A cookie without a timestamp loses window scaling after the SYN|ACK offered it; an MSS below 256 is lost."
  },
  {
   "property": "C107",
   "status": "proved",
   "theorems": [
    "Verif.Syncache.cache_in_order",
    "Verif.Syncache.syn_taken"
   ],
   "note": ""
  },
  {
   "property": "C108",
   "status": "partial",
   "theorems": [
    "Verif.Syncache.entry_stays_partial",
    "Verif.Syncache.bogus_ack_violated",
    "Verif.Syncache.never_expires_violated"
   ],
   "note": "The complete list of reasons is proved; it includes any ACK for the connection, even a wrong one (violation), and there is no timeout (violation)."
  },
  {
   "property": "C109",
   "status": "partial",
   "theorems": [
    "Verif.Syncache.one_entry_partial",
    "Verif.Syncache.twice_violated",
    "Verif.Syncache.vrf_violated"
   ],
   "note": "Holds if no SYN arrives while another thread is between the two halves of answering one for the same connection; the VRF is not compared."
  },
  {
   "property": "C110",
   "status": "partial",
   "theorems": [
    "Verif.Sad.sa_calls_exact_partial",
    "Verif.Sad.sa_lifetime_partial",
    "Verif.Sad.sa_info_partial",
    "Verif.Sad.sa_usable_partial",
    "Verif.Sad.sa_lifetime_violated"
   ],
   "note": "Proved for every history in which an iteration steps past a removed SA only if no other was removed since, binding is atomic and fewer than 2^32-2 references exist. Stepping past two removed SAs hands out a freed object (violation)."
  },
  {
   "property": "C111",
   "status": "partial",
   "theorems": [
    "Verif.Sad.sa_distinct_partial",
    "Verif.Sad.sa_calls_exact_partial",
    "Verif.Sad.failed_create_partial"
   ],
   "note": "sa_calls_exact_partial contains the reasons for refusing a creation; same histories as C110."
  },
  {
   "property": "C112",
   "status": "partial",
   "theorems": [
    "Verif.Sad.status_monotone_partial",
    "Verif.Sad.destroy_once_partial",
    "Verif.Sad.odp_in_order_partial",
    "Verif.Sad.destroy_ok_partial",
    "Verif.Sad.completion_ok_partial",
    "Verif.Sad.failed_destroy_violated",
    "Verif.Sad.leak_violated"
   ],
   "note": "Order, uniqueness and completion are proved (ODP handles never given out twice for the order). After a failure of ODP the destruction cannot be repeated and the SA or its object stays for ever (violations)."
  },
  {
   "property": "C113",
   "status": "partial",
   "theorems": [
    "Verif.Sad.flush_exact_partial"
   ],
   "note": "When all SAs of the VRF are active, ODP agrees and no other thread interferes; stated for any database."
  },
  {
   "property": "C114",
   "status": "partial",
   "theorems": [
    "Verif.Sad.bind_parts",
    "Verif.Sad.bind_race_violated"
   ],
   "note": "Atomic binding is covered by C110; between its critical sections the SA can be freed under the caller (violation)."
  },
  {
   "property": "C115",
   "status": "proved",
   "theorems": [
    "Verif.Udp.udp_round_trip",
    "Verif.Udp.send_addresses",
    "Verif.Udp.recvfrom_exact",
    "Verif.Udp.udpSum_verifies",
    "Verif.Udp.sockaddr_names"
   ],
   "note": "The network in between may change TTL and header checksum and add padding; the packet is in one piece (fragments: C06) and has no IP options."
  },
  {
   "property": "C116",
   "status": "proved",
   "theorems": [
    "Verif.Udp.receive_history",
    "Verif.Udp.input_safe",
    "Verif.Udp.unicast_delivery"
   ],
   "note": "receive_history is about complete datagrams; input_safe says who gets a packet whatever is in it. Events taken by callbacks are not reads."
  },
  {
   "property": "C117",
   "status": "partial",
   "theorems": [
    "Verif.Udp.group_delivery_partial",
    "Verif.Udp.group_copy_violated",
    "Verif.Udp.group_share_violated",
    "Verif.Udp.directed_broadcast_violated"
   ],
   "note": "Holds if all receivers share the port (SO_REUSEADDR or SO_REUSEPORT) and packet copies can be made. Violations: failed copy, a member without the option, broadcasts to a subnet."
  },
  {
   "property": "C118",
   "status": "proved",
   "theorems": [
    "Verif.Udp.buffer_history",
    "Verif.Udp.input_conserves",
    "Verif.Udp.recvfrom_conserves",
    "Verif.Udp.sendto_outcome"
   ],
   "note": ""
  },
  {
   "property": "C119",
   "status": "partial",
   "theorems": [
    "Verif.Udp.recvfrom_exact",
    "Verif.Udp.receive_history",
    "Verif.Udp.overread_violated",
    "Verif.Udp.underflow_violated",
    "Verif.Udp.headerless_violated"
   ],
   "note": "Holds for complete datagrams. The length field is believed: longer than the packet, or below 8, it makes the read return memory behind the packet; a packet without UDP header is accepted."
  },
  {
   "property": "C120",
   "status": "partial",
   "theorems": [
    "Verif.Udp.vrf_violated",
    "Verif.Udp.input_safe"
   ],
   "note": "Violated: lookup and delivery never compare VRFs. input_safe is what does hold."
  },
  {
   "property": "C121",
   "status": "proved",
   "theorems": [
    "Verif.Avl.tree_refines_bag",
    "Verif.Avl.lookup_after_history",
    "Verif.Avl.iterate_after_history",
    "Verif.Avl.next_prev_spec",
    "Verif.Avl.first_spec",
    "Verif.Avl.insert_contents",
    "Verif.Avl.delete_hit",
    "Verif.Avl.delete_miss",
    "Verif.Avl.insert_full",
    "Verif.Avl.word_fields"
   ],
   "note": "Each call atomic (the code takes the read/write lock in these calls). Pool and tree roots of other trees are a constant."
  },
  {
   "property": "C122",
   "status": "proved",
   "theorems": [
    "Verif.Avl.lookup_after_history",
    "Verif.Avl.getSteps_log"
   ],
   "note": ""
  },
  {
   "property": "C123",
   "status": "partial",
   "theorems": [
    "Verif.Avl.index_after_history_partial",
    "Verif.Avl.index_after_miss_violated",
    "Verif.Avl.index_after_full_violated",
    "Verif.Avl.spanLow_spec"
   ],
   "note": "Holds for histories in which every call succeeded. Violated after deleting an absent key (rank of the last node is raised) and after an insertion that failed for lack of nodes (ranks on the way stay raised): positions are then wrong, a range walk follows a null pointer."
  },
  {
   "property": "C124",
   "status": "proved",
   "theorems": [
    "Verif.Avl.Rules.rules_after_history",
    "Verif.Avl.Rules.vrf_listing_after_history",
    "Verif.Avl.Rules.sim_init",
    "Verif.Avl.Rules.sim_add",
    "Verif.Avl.Rules.sim_remove",
    "Verif.Avl.Rules.sim_search"
   ],
   "note": "At least as many tree nodes as rule slots (the pool is sized 64 + VRFs + VLANs + routes). sim_*: the tree-backed table refines the map used in the Mtrie model, so the results about route lookup in the default build hold with the tree in place."
  },
  {
   "property": "C125",
   "status": "proved",
   "theorems": [
    "Verif.Md5.md5_rfc",
    "Verif.Md5.md5_chunks",
    "Verif.Md5.md5_len",
    "Verif.Md5.transform_q"
   ],
   "note": "Spec.md5 is written from RFC 1321 and checked on its test suite. Inputs shorter than 2^32-63 bytes per call; the message as a whole has no bound."
  },
  {
   "property": "C126",
   "status": "partial",
   "theorems": [
    "Verif.Md5.md5_rfc",
    "Verif.Md5.long_input_violated"
   ],
   "note": "Holds below 2^32-63 bytes (no fault in md5_rfc). Refuted for longer inputs: i + 63 wraps, the loop runs on beyond the input."
  },
  {
   "property": "C127",
   "status": "partial",
   "theorems": [
    "Verif.Md5.Isn.isn_advances",
    "Verif.Md5.Isn.isn_monotone",
    "Verif.Md5.Isn.isn_first_tick_violated"
   ],
   "note": "Proved for the default of no reseeding, at most 524287 connections opened per tick of 10 ms, and once the clock is past its first tick; fails during the first tick."
  },
  {
   "property": "C128",
   "status": "partial",
   "theorems": [
    "Verif.Md5.Isn.isn_secret_violated"
   ],
   "note": "Refuted: the secret is a tick count and 24 zero bytes (reading of random data is commented out)."
  },
  {
   "property": "C129",
   "status": "proved",
   "theorems": [
    "Verif.Burst.burst_exact",
    "Verif.Burst.burst_lossless",
    "Verif.Burst.refused_freed",
    "Verif.Burst.burst_zero"
   ],
   "note": "Driver answers are between -inf and the number of packets given, as ODP promises. The variables are per thread."
  },
  {
   "property": "C130",
   "status": "proved",
   "theorems": [
    "Verif.Rto.rto_range",
    "Verif.Rto.rto_covers_sample",
    "Verif.Rto.persist_range",
    "Verif.Rto.tsSample_range"
   ],
   "note": "For every history, including absurd measurements provoked by the peer; overflow of int wraps."
  },
  {
   "property": "C131",
   "status": "proved",
   "theorems": [
    "Verif.Rto.first_sample",
    "Verif.Rto.later_sample",
    "Verif.Rto.rto_formula",
    "Verif.Rto.srtt_hull",
    "Verif.Rto.rto_upper",
    "Verif.Rto.tsSample_exact",
    "Verif.Rto.measure_ts",
    "Verif.Rto.measure_timed",
    "Verif.Rto.karn"
   ],
   "note": "For round trips up to 524288 ticks (87 minutes), within which nothing overflows; one tick is discounted from every measurement after the first, as the code documents."
  },
  {
   "property": "C132",
   "status": "partial",
   "theorems": [
    "Verif.Rto.backoff_partial",
    "Verif.Rto.backoff_violated"
   ],
   "note": "Holds except from the fourth to the fifth timeout, where the timeout can shrink to about half (the average is moved into the variance in the wrong scale)."
  },
  {
   "property": "C133",
   "status": "proved",
   "theorems": [
    "Verif.Rto.gives_up",
    "Verif.Rto.gives_up_time",
    "Verif.Rto.gives_up_soon"
   ],
   "note": "gives_up_soon: the lower bound of 79 s is attained, so the 100 s of RFC 1122 are not kept."
  },
  {
   "property": "C134",
   "status": "partial",
   "theorems": [
    "Verif.Rto.drop_after_measurement_partial",
    "Verif.Rto.measure_ts",
    "Verif.Rto.progress_dropped_violated"
   ],
   "note": "Holds if acknowledgements carry timestamps (each is then a measurement). Refuted without them."
  },
  {
   "property": "C135",
   "status": "partial",
   "theorems": [
    "Verif.Rto.keep_drop_partial",
    "Verif.Rto.uptime_violated"
   ],
   "note": "Holds, up to one second, during the first 248 days of running; refuted at the moment the tick counter changes sign."
  },
  {
   "property": "C136",
   "status": "partial",
   "theorems": [
    "Verif.Rto.keep_option_exact",
    "Verif.Rto.first_probe_partial",
    "Verif.Rto.connect_timeout_partial",
    "Verif.Rto.keepidle_violated",
    "Verif.Rto.keepcnt_violated",
    "Verif.Rto.keepidle_large_violated",
    "Verif.Rto.keepinit_violated"
   ],
   "note": "Times up to one minute are honoured for the first probe and for connecting; longer ones are cut to one minute, the number of probes is not honoured, times above 2^31 ticks are accepted and end the connection."
  },
  {
   "property": "C137",
   "status": "partial",
   "theorems": [
    "Verif.Rto.persist_keeps",
    "Verif.Rto.persist_range",
    "Verif.Rto.persist_single_loss_violated"
   ],
   "note": "A peer heard within 75 s is kept. One lost answer can end the connection (round trip of 40 ms, window closed for a while)."
  },
  {
   "property": "C138",
   "status": "partial",
   "theorems": [
    "Verif.Rto.timeout_no_reduction_violated",
    "Verif.Rto.dupack_no_reduction_violated",
    "Verif.Rto.no_slow_start_violated"
   ],
   "note": "Refuted for every history: congestion control is compiled out."
  },
  {
   "property": "C139",
   "status": "proved",
   "theorems": [
    "Verif.Callout.stopped_does_not_run",
    "Verif.Callout.at_most_once"
   ],
   "note": "For every interleaving. ODP timers with reusable handles and a parallel event queue are the environment; timeouts below 10 s (longer ones: C25, C26)."
  },
  {
   "property": "C140",
   "status": "partial",
   "theorems": [
    "Verif.Callout.on_time_partial",
    "Verif.Callout.early_run_violated",
    "Verif.Callout.other_connection_violated",
    "Verif.Callout.delack_orphan_violated"
   ],
   "note": "Holds for a timer that is never armed or stopped while its event waits in the queue. Refuted otherwise: callout_pending is constantly 0, so a late event runs the newly armed timer, also one of the next connection using the control block."
  },
  {
   "property": "C141",
   "status": "partial",
   "theorems": [
    "Verif.Callout.not_lost_partial",
    "Verif.Callout.stale_handle_violated",
    "Verif.Callout.empty_pool_violated"
   ],
   "note": "Holds if the timer pool is not empty and every action re-arms or stops its own timer. Refuted otherwise: the stale handle cancels a timer of another connection; with an empty pool the timer counts as running."
  },
  {
   "property": "C142",
   "status": "partial",
   "theorems": [
    "Verif.Tw.ends_for_reason",
    "Verif.Tw.ends_in_time",
    "Verif.Tw.bounded",
    "Verif.Tw.table_size",
    "Verif.Tw.msl_change_violated",
    "Verif.Tw.maxtcptw_violated",
    "Verif.Tw.no_table_violated"
   ],
   "note": "Holds as long as the MSL is not changed at run time; then newer connections wait for older ones. The sysctl for the table size has no effect. The control blocks put into TIME_WAIT are distinct from those in it (one live block per connection)."
  },
  {
   "property": "C143",
   "status": "proved",
   "theorems": [
    "Verif.Tw.segment_ends_only_new",
    "Verif.Tw.reset_ignored",
    "Verif.Tw.fin_again",
    "Verif.Tw.answers",
    "Verif.Tw.answers_repeat"
   ],
   "note": ""
  },
  {
   "property": "C144",
   "status": "partial",
   "theorems": [
    "Verif.Tw.pure_ack_answered_violated",
    "Verif.Tw.ack_war_violated",
    "Verif.Tw.data_not_answered_violated"
   ],
   "note": "Refuted: the test of the segment length is inverted (tlen == 0), every pure acknowledgement is answered."
  },
  {
   "property": "C145",
   "status": "proved",
   "theorems": [
    "Verif.Tw.released_once"
   ],
   "note": ""
  },
  {
   "property": "C146",
   "status": "partial",
   "theorems": [
    "Verif.Tw.fin_wait2_ends_partial",
    "Verif.Tw.fin_wait2_not_early_partial",
    "Verif.Tw.fast_recycle_effect"
   ],
   "note": "For the first 248 days of running; the keep-alive timer of the same connection is the subject of C135."
  },
  {
   "property": "C147",
   "status": "partial",
   "theorems": [
    "Verif.Mcast.delivery_partial",
    "Verif.Mcast.blocked_delivered_violated"
   ],
   "note": "Holds except for blocked sources: a source in the list of an EXCLUDE membership is delivered, for every history (blocked_delivered_violated). Histories that set no empty list (C149)."
  },
  {
   "property": "C148",
   "status": "partial",
   "theorems": [
    "Verif.Mcast.calls_exact_partial",
    "Verif.Mcast.step_exact",
    "Verif.Mcast.views_believed"
   ],
   "note": "For every history that sets no empty list (C149). Calls may also fault (C150) or hang (C152) instead of returning; ENOSPC of setting a filter is not exact (C149)."
  },
  {
   "property": "C149",
   "status": "partial",
   "theorems": [
    "Verif.Mcast.set_replaces_partial",
    "Verif.Mcast.set_empty_violated",
    "Verif.Mcast.set_everything_violated",
    "Verif.Mcast.set_full_violated"
   ],
   "note": "Holds for non-empty lists that are accepted. Refuted for empty lists (the old sources stay and the mode changes around them), and for full lists if the old list had other sources."
  },
  {
   "property": "C150",
   "status": "partial",
   "theorems": [
    "Verif.Mcast.no_fault_partial",
    "Verif.Mcast.full_fault",
    "Verif.Mcast.full_violated",
    "Verif.Mcast.block_unlimited_violated"
   ],
   "note": "No fault while there is memory and the record has room. Refuted at the limit: the code that undoes the merge starts from an unset pointer; blocking ignores the limit of the membership."
  },
  {
   "property": "C151",
   "status": "partial",
   "theorems": [
    "Verif.Mcast.record_lives_partial",
    "Verif.Mcast.close_leak_violated"
   ],
   "note": "Holds as long as no socket is closed while a member. Refuted then: the record stays for ever, whatever is called later."
  },
  {
   "property": "C152",
   "status": "partial",
   "theorems": [
    "Verif.Mcast.lock_free_partial",
    "Verif.Mcast.lock_left_violated"
   ],
   "note": "Holds as long as IGMP reports no error. Refuted: a join that returns an error of IGMP leaves IN_MULTI_LOCK held."
  },
  {
   "property": "C153",
   "status": "partial",
   "theorems": [
    "Verif.Mcast.interface_wants_partial",
    "Verif.Mcast.record_counts",
    "Verif.Mcast.asked_not_announced_violated",
    "Verif.Mcast.include_forgotten_violated"
   ],
   "note": "Holds for histories without close, IGMP errors and empty INCLUDE lists, fewer than 65536 members, and sources that are not both asked for by an INCLUDE member and excluded by every EXCLUDE member. Refuted for those, and after an empty INCLUDE list (the counter of INCLUDE members is decremented twice)."
  },
  {
   "property": "C154",
   "status": "partial",
   "theorems": [
    "Verif.Ip6.ofp_in6_cksum_partial",
    "Verif.Ip6.ofp_in6_cksum_scope",
    "Verif.Ip6.ofp_in6_cksum_violated",
    "Verif.Ip6.nd_checksum_valid",
    "Verif.Ip6.icmp_checksum_valid"
   ],
   "note": "Holds for all packets whose addresses carry nothing in the second 16 bits of a link-local or multicast address. Refuted for the others (RFC 3306 groups): those bits are taken for an embedded scope and left out of the sum (ofp_in6_cksum_scope says exactly what is computed)."
  },
  {
   "property": "C155",
   "status": "partial",
   "theorems": [
    "Verif.Ip6.ip6_at_most_once_partial",
    "Verif.Ip6.ip6_exactly_once_partial",
    "Verif.Ip6.ip6_double_free_violated",
    "Verif.Ip6.ip6_ext_double_free",
    "Verif.Ip6.ip6_leak_violated",
    "Verif.Ip6.ip6_echo_reply_leak_violated"
   ],
   "note": "At most once for every history without extension headers; exactly once without extension headers, echo messages, error-causing packets and no-next-header packets. Refuted: every packet with an extension header for this host is freed twice; echo replies and packets without next header are never freed."
  },
  {
   "property": "C156",
   "status": "proved",
   "theorems": [
    "Verif.Ip6.ip6_records_conserved",
    "Verif.Ip6.ip6_waits_at_route",
    "Verif.Ip6.ip6_delete_frees",
    "Verif.Ip6.ip6_waiting_sent_in_order",
    "Verif.Ip6.ip6_wait_appends"
   ],
   "note": "For every history of frames, sends and route changes; calls atomic."
  },
  {
   "property": "C157",
   "status": "partial",
   "theorems": [
    "Verif.Ip6.ip6_neighbour_used_partial",
    "Verif.Ip6.ip6_resolution_partial",
    "Verif.Ip6.ip6_neighbour_shared_violated",
    "Verif.Ip6.ip6_gateway_violated"
   ],
   "note": "Holds for on-link destinations if the node pool has room for the host route. Refuted without room (the Ethernet address is stored at the subnet route and used for all its hosts) and for gateways (their answer is never used for the routes through them)."
  },
  {
   "property": "C158",
   "status": "partial",
   "theorems": [
    "Verif.Ip6.ip6_input_keeps_routes_partial",
    "Verif.Ip6.ip6_redirect_violated"
   ],
   "note": "No received frame removes or changes the next hop of a route in the table. Refuted: an advertisement or solicitation with any hop limit creates a host route that overrides a configured route."
  },
  {
   "property": "C159",
   "status": "partial",
   "theorems": [
    "Verif.Ip6.ip6_ns_answered_partial",
    "Verif.Ip6.ip6_ns_foreign_violated",
    "Verif.Ip6.ip6_dad_violated"
   ],
   "note": "Every solicitation with an option is answered once, with the right addresses and checksum. Refuted: targets that are not addresses of the host are answered too; duplicate address detection is not answered."
  },
  {
   "property": "C160",
   "status": "partial",
   "theorems": [
    "Verif.Ip6.ip6_local_delivery_partial",
    "Verif.Ip6.ip6_local_foreign_violated",
    "Verif.Ip6.ip6_all_nodes_violated"
   ],
   "note": "Exact except for ff02::1, the solicited-node group of the link-local address (both not delivered) and foreign addresses with the interface identifier of the link-local address (delivered)."
  },
  {
   "property": "C161",
   "status": "partial",
   "theorems": [
    "Verif.Ip6.ip6_forward_partial",
    "Verif.Ip6.ip6_hop_limit_violated"
   ],
   "note": "Route and neighbour are right and the packet is unchanged - including the hop limit, which is neither decremented nor checked (refuted)."
  },
  {
   "property": "C162",
   "status": "partial",
   "theorems": [
    "Verif.Ip6.ip6_input_in_bounds_partial",
    "Verif.Ip6.ip6_notify_in_bounds",
    "Verif.Ip6.ip6_short_frame_violated",
    "Verif.Ip6.ip6_short_ns_violated",
    "Verif.Ip6.ip6_quote_violated",
    "Verif.Ip6.ip6_table_index_violated"
   ],
   "note": "No access outside the packet for frames whose length matches their header and whose ND messages have a complete option; the chain of extension headers in quoted packets is safe for all. Refuted for short frames, short solicitations, frames shorter than their header says, and the protocol table (every neighbour advertisement indexes it with IPPROTO_DONE = 257)."
  },
  {
   "property": "C163",
   "status": "partial",
   "theorems": [
    "Verif.Ip6.ip6_echo_partial",
    "Verif.Ip6.ip6_echo_source_violated"
   ],
   "note": "Answered with the same identifier, number and data, and a correct checksum; refuted for the source address: it is that of the outgoing interface."
  },
  {
   "property": "C164",
   "status": "partial",
   "theorems": [
    "Verif.Ip6.ip6_error_suppressed_partial",
    "Verif.Ip6.ip6_error_content",
    "Verif.Ip6.ip6_error_about_error_violated"
   ],
   "note": "Multicast and unspecified addresses cause no error; the quotation is exact. Refuted: an ICMPv6 error behind an extension header is answered with an error, whose pointer is 0."
  },
  {
   "property": "C165",
   "status": "partial",
   "theorems": [
    "Verif.Ip6.ip6_unanswered_queued_partial",
    "Verif.Ip6.ip6_exhaustion_violated",
    "Verif.Ip6.send_exhausted",
    "Verif.Ip6.send_many"
   ],
   "note": "Queued as long as a record is free. Refuted: 2048 packets to one silent neighbour use all records for ever."
  },
  {
   "property": "C166",
   "status": "partial",
   "theorems": [
    "Verif.Ifcfg.addresses_match_routes_partial",
    "Verif.Ifcfg.step_good",
    "Verif.Ifcfg.init_good",
    "Verif.Ifcfg.full_list_violated",
    "Verif.Ifcfg.mask32_violated",
    "Verif.Ifcfg.foreign_vrf_violated",
    "Verif.Ifcfg.add_foreign_address_radix_violated",
    "Verif.Ifcfg.loop_prefix_violated"
   ],
   "note": "For every history of calls that respect: prefix lengths up to 31, addresses and subnets nobody else uses, at most seven addresses per interface, secondary addresses in the VRF of the interface. Refuted outside: eight addresses, prefix length 32 (host route not local), add_ip with another VRF, address of another interface, loopback with a shorter prefix."
  },
  {
   "property": "C167",
   "status": "partial",
   "theorems": [
    "Verif.Ifcfg.up_exact",
    "Verif.Ifcfg.upLocal_exact",
    "Verif.Ifcfg.up_success_without_address_violated",
    "Verif.Ifcfg.mask32_violated",
    "Verif.Ifcfg.loop_prefix_violated"
   ],
   "note": "Exact effect for every consistent state under the conditions UpPre. Refuted: success is reported although the address belongs to another interface and was not configured; prefix length 32; loopback with a prefix shorter than 32."
  },
  {
   "property": "C168",
   "status": "partial",
   "theorems": [
    "Verif.Ifcfg.addIp_exact",
    "Verif.Ifcfg.delIp_exact",
    "Verif.Ifcfg.net_spec",
    "Verif.Ifcfg.full_list_violated",
    "Verif.Ifcfg.shared_subnet_violated",
    "Verif.Ifcfg.foreign_vrf_violated"
   ],
   "note": "Exact for every consistent state with at most seven addresses and no shared subnets. Refuted: an address of an interface with eight addresses cannot be removed; with two addresses in a subnet removing one removes the subnet route of both."
  },
  {
   "property": "C169",
   "status": "partial",
   "theorems": [
    "Verif.Ifcfg.up_fail_noop",
    "Verif.Ifcfg.down_fail_noop",
    "Verif.Ifcfg.addIp_fail_noop",
    "Verif.Ifcfg.delIp_fail_noop",
    "Verif.Ifcfg.refusals",
    "Verif.Ifcfg.add_foreign_address_violated",
    "Verif.Ifcfg.full_list_violated"
   ],
   "note": "up, down: in every state. add: if its two routes were free. del: in every consistent state. Refuted: a refused add of an address of another interface deletes the routes of that interface; a failing delete on a full interface deletes the routes."
  },
  {
   "property": "C170",
   "status": "partial",
   "theorems": [
    "Verif.Ifcfg.down_exact",
    "Verif.Ifcfg.full_list_violated",
    "Verif.Ifcfg.shared_subnet_violated",
    "Verif.Ifcfg.mask32_violated",
    "Verif.Ifcfg.loop_prefix_violated",
    "Verif.Ifcfg.delete_ifnet_violated"
   ],
   "note": "Exact for every consistent state. Refuted: full address lists and prefix length 32 survive down; routes of subnets shared with other interfaces go too."
  },
  {
   "property": "C171",
   "status": "partial",
   "theorems": [
    "Verif.Ifcfg.up_exact",
    "Verif.Ifcfg.down_exact",
    "Verif.Ifcfg.addIp_exact",
    "Verif.Ifcfg.delIp_exact",
    "Verif.Ifcfg.static_add",
    "Verif.Ifcfg.static_del",
    "Verif.Ifcfg.vlan_up_default_route_violated",
    "Verif.Ifcfg.vlan_move_default_route_violated",
    "Verif.Ifcfg.shared_subnet_violated"
   ],
   "note": "The exact effects state every other route unchanged. Refuted: configuring a VLAN interface that has no address, or moving one to another VRF, deletes a default route."
  },
  {
   "property": "C172",
   "status": "partial",
   "theorems": [
    "Verif.Ifcfg.by_ip_exact",
    "Verif.Ifcfg.match_port_exact",
    "Verif.Ifcfg.owner_unique",
    "Verif.Ifcfg.secondary_address_violated",
    "Verif.Ifcfg.match_vlan_violated"
   ],
   "note": "by_ip is exact for primary addresses, match without VLAN for all addresses of ports. Refuted: secondary addresses are not found by address; with a VLAN the VRF is ignored and an interface without the address is returned."
  },
  {
   "property": "C173",
   "status": "partial",
   "theorems": [
    "Verif.Ifcfg.bind_finds_primary_partial",
    "Verif.Ifcfg.run_good",
    "Verif.Ifcfg.secondary_address_violated",
    "Verif.Ifcfg.bind_list_violated",
    "Verif.Ifcfg.delete_ifnet_violated"
   ],
   "note": "Exact for primary addresses. Refuted: secondary addresses are never found; an interface that lost its last address is not listed again by up (VLAN) or add; ofp_delete_ifnet leaves a freed interface on the list."
  },
  {
   "property": "C174",
   "status": "partial",
   "theorems": [
    "Verif.Ifcfg.up_exact",
    "Verif.Ifcfg.upLocal_exact",
    "Verif.Ifcfg.vlan_pool_exhausted_violated",
    "Verif.Ifcfg.delete_ifnet_violated"
   ],
   "note": "No crash while a record is free (crash flag unchanged in the exact effects). Refuted when the records are used up."
  },
  {
   "property": "C175",
   "status": "partial",
   "theorems": [
    "Verif.Vxlan.relearn",
    "Verif.Vxlan.learn_home",
    "Verif.Vxlan.learned_is_known_partial",
    "Verif.Vxlan.learned_is_known_violated"
   ],
   "note": "Holds in every state for known addresses and free home slots, and for every history without two addresses of the same hash. Refuted for colliding addresses: old_key is not reset between rounds, so the next slot gets the end point but not the key."
  },
  {
   "property": "C176",
   "status": "partial",
   "theorems": [
    "Verif.Vxlan.answers_are_learned_partial",
    "Verif.Vxlan.answers_are_learned_violated"
   ],
   "note": "For every history and every address but the all-zero one, for which it is refuted (its key is the mark of free slots)."
  },
  {
   "property": "C177",
   "status": "partial",
   "theorems": [
    "Verif.Vxlan.learn_is_isolated_partial"
   ],
   "note": "With fewer than 8192 different addresses and without the all-zero one. Missing: full tables."
  },
  {
   "property": "C178",
   "status": "partial",
   "theorems": [
    "Verif.Vxlan.known_for_two_hours_partial",
    "Verif.Vxlan.forgotten_after_two_hours_partial",
    "Verif.Vxlan.forgotten_after_an_hour_violated",
    "Verif.Vxlan.known_for_an_hour_violated"
   ],
   "note": "The life time is two hours (the hour is added when storing and when checking), exactly, until the 32-bit tick counter wraps. Refuted: one hour; and near the wrap entries are forgotten at once."
  },
  {
   "property": "C179",
   "status": "partial",
   "theorems": [
    "Verif.Vxlan.concurrent_answer_partial",
    "Verif.Vxlan.concurrent_answer_violated",
    "Verif.Vxlan.refresh_lost_violated"
   ],
   "note": "Under every schedule an answer is an end point and the MAC address is one that some thread learned, but refuted: not together, because the key is visible before the address; and the timer can delete an entry refreshed under it. Sequential consistency."
  },
  {
   "property": "C180",
   "status": "proved",
   "theorems": [
    "Verif.Vxlan.vx_round_trip"
   ],
   "note": "For every frame and every path that delivers the datagram with an IP header without options; network numbers below 65536."
  },
  {
   "property": "C181",
   "status": "partial",
   "theorems": [
    "Verif.Vxlan.vni_demux_partial",
    "Verif.Vxlan.vx_input_exact",
    "Verif.Vxlan.arrives_exists",
    "Verif.Vxlan.vni_isolation_violated",
    "Verif.Vxlan.vni_zero_violated",
    "Verif.Vxlan.vx_validation_violated"
   ],
   "note": "Exact for network numbers 1 to 65535. Refuted: network 65536+v is delivered to v; network 0 is taken without interface; flag and length of the frame are not checked."
  },
  {
   "property": "C182",
   "status": "partial",
   "theorems": [
    "Verif.Vxlan.vx_prepend_exact",
    "Verif.Vxlan.vx_fields_partial",
    "Verif.Vxlan.vx_lengths_violated"
   ],
   "note": "Exact bytes for every frame; the lengths are right up to 65499 bytes of frame, refuted above."
  },
  {
   "property": "C183",
   "status": "partial",
   "theorems": [
    "Verif.Vxlan.gre_out4_exact",
    "Verif.Vxlan.gre_out6_exact",
    "Verif.Vxlan.gre_length_partial",
    "Verif.Vxlan.gre_length_violated"
   ],
   "note": "Exact bytes for every packet; refuted: the length wraps above 65511 bytes."
  },
  {
   "property": "C184",
   "status": "proved",
   "theorems": [
    "Verif.Vxlan.gre_demux"
   ],
   "note": "For every packet and set of tunnels."
  },
  {
   "property": "C185",
   "status": "partial",
   "theorems": [
    "Verif.Vxlan.gre_round_trip",
    "Verif.Vxlan.gre_round_trip6",
    "Verif.Vxlan.gre_input_untagged",
    "Verif.Vxlan.gre_key_violated",
    "Verif.Vxlan.gre_options_violated",
    "Verif.Vxlan.gre_vlan_violated"
   ],
   "note": "Round trip for every packet that this stack encapsulates. Refuted for GRE headers with key (flags tested in host byte order), outer IP options (fixed offset), and VLAN interfaces (destination address overwritten by the source address)."
  },
  {
   "property": "C186",
   "status": "partial",
   "theorems": [
    "Verif.Vxlan.send_plain_plain",
    "Verif.Vxlan.send_plain_tagged",
    "Verif.Vxlan.send_tagged_tagged",
    "Verif.Vxlan.send_tagged_plain",
    "Verif.Vxlan.untagged_interface_violated"
   ],
   "note": "Exact for frames with at most one tag. Refuted: a frame with two tags leaves an untagged interface with one."
  },
  {
   "property": "C187",
   "status": "proved",
   "theorems": [
    "Verif.Pcb6.delivery6_exact",
    "Verif.Pcb6.accepted4_not_ipv6"
   ],
   "note": "For every hash function, every history of calls on sockets of both families and every packet to an address other than `::`. Peers whose last 32 address bits are 0 are excluded from histories (they are mistaken for no peer by the IPv4 code)."
  },
  {
   "property": "C188",
   "status": "partial",
   "theorems": [
    "Verif.Pcb6.no_v6_for_v4_partial",
    "Verif.Pcb6.delivery4_partial",
    "Verif.Pcb6.v6only_gets_v4_violated",
    "Verif.Pcb6.accepted6_gets_v4_violated"
   ],
   "note": "The IPv6 half holds for every history; the IPv4 half if all sockets with the port take IPv4. Refuted: a socket with IPV6_V6ONLY bound to `::` receives IPv4 packets; with ip6_v6only = 0 an accepted IPv6 connection receives the segments of an IPv4 peer whose address is the last word of its peer."
  },
  {
   "property": "C189",
   "status": "partial",
   "theorems": [
    "Verif.Pcb6.bind6_exact",
    "Verif.Pcb6.reuseport6_violated",
    "Verif.Pcb6.dual_bind_steals_violated"
   ],
   "note": "Exact against IPv6 sockets, for every history. Refuted against IPv4 sockets (ip6_v6only = 0): `::` can be bound although an IPv4 socket has any address of the port; SO_REUSEPORT has no effect."
  },
  {
   "property": "C190",
   "status": "proved",
   "theorems": [
    "Verif.Pcb6.ephemeral_bind6",
    "Verif.Pcb6.ephemeral_sendto6",
    "Verif.Pcb6.ephemeral_listen6"
   ],
   "note": "For every history, range and random number; completeness (failure only if no port is free) for bind."
  },
  {
   "property": "C191",
   "status": "partial",
   "theorems": [
    "Verif.Pcb6.connect6_udp_partial",
    "Verif.Pcb6.connect6_tcp",
    "Verif.Pcb6.connect6_mapped_refused",
    "Verif.Pcb6.connection6_unique_violated"
   ],
   "note": "Stream sockets: always. Datagram sockets: unless the socket is unbound and has SO_REUSEADDR or SO_REUSEPORT, where uniqueness is refuted."
  },
  {
   "property": "C192",
   "status": "partial",
   "theorems": [
    "Verif.Pcb6.failed_bind6_partial",
    "Verif.Pcb6.failed_connect6_partial",
    "Verif.Pcb6.failed_call_deafens_violated",
    "Verif.Pcb6.failed_tcp_connect_binds_violated"
   ],
   "note": "Failed bind and datagram connect change nothing but the family flags of the socket; refuted: these flags decide which packets it receives (ip6_v6only = 0), and a failed stream connect leaves the socket bound."
  },
  {
   "property": "C193",
   "status": "partial",
   "theorems": [
    "Verif.Pcb6.bind6_keeps_port_partial",
    "Verif.Pcb6.bind6_clears_port_violated",
    "Verif.Pcb6.sendto6_overwrites_violated",
    "Verif.Pcb6.sendto6_keeps_partial"
   ],
   "note": "Refuted: every bind to a unicast address clears the port in the structure of the caller; sendto to a mapped address overwrites it (ip6_v6only = 0). Holds for the other cases."
  },
  {
   "property": "C194",
   "status": "partial",
   "theorems": [
    "Verif.Pcb6.disconnect6_partial",
    "Verif.Pcb6.disconnect6_half_violated",
    "Verif.Pcb6.disconnect6_unconnected_violated"
   ],
   "note": "Exact for sockets whose IPv4 flag is off; refuted with ip6_v6only = 0."
  },
  {
   "property": "C195",
   "status": "proved",
   "theorems": [
    "Verif.Igmp.report_states_filter",
    "Verif.Igmp.parse_encode"
   ],
   "note": "Reports that start with a new packet: for every group and list of sources; a call fails only if the queue is full. Allocation failures are left out."
  },
  {
   "property": "C196",
   "status": "partial",
   "theorems": [
    "Verif.Igmp.report_appends_partial",
    "Verif.Igmp.report_fits_mtu_violated"
   ],
   "note": "Exact except for the size: the room is computed without the 32 bytes of headers, so the report may exceed the MTU (refuted); it fits if all sources of the group fit."
  },
  {
   "property": "C197",
   "status": "partial",
   "theorems": [
    "Verif.Igmp.report_never_empty_partial",
    "Verif.Igmp.report_never_empty_violated"
   ],
   "note": "Holds if every source of the group is in its mode; refuted when the sources that remain for a further packet are not."
  },
  {
   "property": "C198",
   "status": "partial",
   "theorems": [
    "Verif.Igmp.exclude_in_one_record_partial",
    "Verif.Igmp.exclude_in_one_record_violated"
   ],
   "note": "Holds while the sources fit one packet; refuted otherwise: several EXCLUDE records, each replacing the one before."
  },
  {
   "property": "C199",
   "status": "partial",
   "theorems": [
    "Verif.Igmp.change_reported_partial",
    "Verif.Igmp.change_reported_violated",
    "Verif.Igmp.change_unblock_violated"
   ],
   "note": "Exact if there are sources of both kinds and no source of an EXCLUDE group is in INCLUDE mode; refuted for every change of one kind only that fits a packet (the record header is removed from the packet), and for a source going from excluded to included in an EXCLUDE group."
  },
  {
   "property": "C200",
   "status": "partial",
   "theorems": [
    "Verif.Igmp.report_states_filter",
    "Verif.Igmp.report_appends_partial",
    "Verif.Igmp.change_count_violated"
   ],
   "note": "Right for current-state and mode-change records; refuted for every change of the source list: the count is uninitialised memory."
  },
  {
   "property": "C201",
   "status": "partial",
   "theorems": [
    "Verif.Igmp.Host.query2_answered",
    "Verif.Igmp.Host.query1_answered_partial",
    "Verif.Igmp.Host.query2_sleeping_violated",
    "Verif.Igmp.Host.query1_joining_violated"
   ],
   "note": "Version 2: always, for members not put to sleep by a version 1 report; refuted for those: the query only makes them ready for the next. Version 1: if the timer of the join does not run; refuted if it does. The handlers are modelled as called; see C210 for packets."
  },
  {
   "property": "C202",
   "status": "partial",
   "theorems": [
    "Verif.Igmp.Host.query3_answered",
    "Verif.Igmp.Host.query3_pending_violated"
   ],
   "note": "Holds for every history unless a query for the group is pending; refuted then: the group is left out and waits for its own timer."
  },
  {
   "property": "C203",
   "status": "partial",
   "theorems": [
    "Verif.Igmp.Host.query3g_answered",
    "Verif.Igmp.Host.query3g_kept",
    "Verif.Igmp.Host.sources_postponed_violated"
   ],
   "note": "Holds for group queries, whatever other queries of version 3 follow; refuted for repeated queries for sources, which postpone the answer for ever."
  },
  {
   "property": "C204",
   "status": "proved",
   "theorems": [
    "Verif.Igmp.Host.never_reported"
   ],
   "note": "For every history."
  },
  {
   "property": "C205",
   "status": "proved",
   "theorems": [
    "Verif.Igmp.Host.join_reported",
    "Verif.Igmp.Host.leave_reported"
   ],
   "note": "For every history before and after; memberships for any source. See C199, C200 for changes of source lists."
  },
  {
   "property": "C206",
   "status": "partial",
   "theorems": [
    "Verif.Igmp.Host.compatibility_forever_violated",
    "Verif.Igmp.Host.compatibility_no_records"
   ],
   "note": "Refuted: from every reachable state of an older version no history leads back to version 3, and no record of version 3 is sent."
  },
  {
   "property": "C207",
   "status": "partial",
   "theorems": [
    "Verif.Igmp.Host.join_not_repeated_violated"
   ],
   "note": "Refuted for every join on a link of version 1 or 2: the timer runs out in state IDLE, where it is ignored."
  },
  {
   "property": "C208",
   "status": "partial",
   "theorems": [
    "Verif.Igmp.Host.rejoin_violated"
   ],
   "note": "Refuted: a group left and joined again before the first report of the leave ends as a member about which nothing is sent, whatever happens."
  },
  {
   "property": "C209",
   "status": "partial",
   "theorems": [
    "Verif.Igmp.Host.codes_partial",
    "Verif.Igmp.Host.codes_violated"
   ],
   "note": "Codes below 128 only; refuted for every code from 128 on (the implied bit of the mantissa is missing)."
  },
  {
   "property": "C210",
   "status": "partial",
   "theorems": [
    "Verif.Igmp.Input.old_queries_violated"
   ],
   "note": "Refuted for every datagram: the length compared is that of the datagram including the IP header, so it is never 8."
  },
  {
   "property": "C211",
   "status": "partial",
   "theorems": [
    "Verif.Igmp.Input.general_query_partial",
    "Verif.Igmp.Input.general_query_violated"
   ],
   "note": "Holds if the packet data starts with the IP header and zeros follow; refuted for every Ethernet frame, tagged or not, with the usual header lengths (20, 24): the message is read at the wrong place."
  },
  {
   "property": "C212",
   "status": "partial",
   "theorems": [
    "Verif.Igmp.Input.checksum_partial",
    "Verif.Igmp.Input.checksum_violated"
   ],
   "note": "Holds if zeros follow the message; refuted for every message with good checksum: some memory behind it makes it dropped."
  },
  {
   "property": "C213",
   "status": "partial",
   "theorems": [
    "Verif.Sysctl.names_partial",
    "Verif.Sysctl.trailing_dot",
    "Verif.Sysctl.duplicate_number_violated"
   ],
   "note": "Holds for every tree in which explicit numbers are below 256 and not taken by a sibling; refuted otherwise: nothing checks for equal numbers, and the name of the second entry leads to the first."
  },
  {
   "property": "C214",
   "status": "proved",
   "theorems": [
    "Verif.Sysctl.add_exact"
   ],
   "note": "For every reachable tree."
  },
  {
   "property": "C215",
   "status": "proved",
   "theorems": [
    "Verif.Sysctl.number_exact",
    "Verif.Sysctl.const_exact"
   ],
   "note": "For every entry of this kind, buffer and value."
  },
  {
   "property": "C216",
   "status": "proved",
   "theorems": [
    "Verif.Sysctl.read_only_kept"
   ],
   "note": "For every history. Handlers of other modules (PROC) are not modelled."
  },
  {
   "property": "C217",
   "status": "partial",
   "theorems": [
    "Verif.Sysctl.string_partial",
    "Verif.Sysctl.string_overflow_violated"
   ],
   "note": "Values below 2 GB; refuted for those from 2 to 4 GB: the length is compared as an int."
  },
  {
   "property": "C218",
   "status": "partial",
   "theorems": [
    "Verif.Sysctl.msec_partial",
    "Verif.Sysctl.msec_negative_violated"
   ],
   "note": "Times from 0; refuted for every negative one: hz is unsigned, so it is taken for more than 122 days."
  },
  {
   "property": "C219",
   "status": "partial",
   "theorems": [
    "Verif.Sockopt.flag_partial",
    "Verif.Sockopt.unreadable_violated"
   ],
   "note": "Refuted for OFP_SO_NO_DDP, OFP_SO_NO_OFFLOAD, OFP_SO_SETFIB and OFP_SO_USER_COOKIE: set with success, not readable."
  },
  {
   "property": "C220",
   "status": "proved",
   "theorems": [
    "Verif.Sockopt.marks_kept",
    "Verif.Sockopt.size_exact",
    "Verif.Sockopt.mark_exact"
   ],
   "note": "For every history."
  },
  {
   "property": "C221",
   "status": "partial",
   "theorems": [
    "Verif.Sockopt.linger_partial",
    "Verif.Sockopt.linger_violated"
   ],
   "note": "Times in the range of short; refuted for all others: so_linger is a short, and nothing checks."
  },
  {
   "property": "C222",
   "status": "partial",
   "theorems": [
    "Verif.Sockopt.timeout_partial",
    "Verif.Sockopt.timeout_read_violated",
    "Verif.Sockopt.timeout_wrap_violated"
   ],
   "note": "Refuted: a time is read as struct timeval, so its microseconds are missing from struct ofp_timeval; a wait of 4295 seconds or more is cut to 32 bits of microseconds."
  },
  {
   "property": "C223",
   "status": "partial",
   "theorems": [
    "Verif.Sockopt.refused_partial",
    "Verif.Sockopt.setfib_violated"
   ],
   "note": "Refuted for OFP_SO_SETFIB with a value that is too short. For multicast options see the module Mcast."
  },
  {
   "property": "C224",
   "status": "partial",
   "theorems": [
    "Verif.Sockopt.nopush_partial",
    "Verif.Sockopt.ignored_violated",
    "Verif.Sockopt.ignored_udp_violated"
   ],
   "note": "Holds for OFP_TCP_NOPUSH and OFP_TCP_CORK; refuted for all other options of TCP sockets and for options of IP on UDP sockets that are not for multicast."
  },
  {
   "property": "C225",
   "status": "partial",
   "theorems": [
    "Verif.Sockopt.held_partial",
    "Verif.Sockopt.held_violated"
   ],
   "note": "Refuted for the level OFP_IPPROTO_UDP of UDP sockets. The lock is a real one unless OFP_RSS is defined."
  },
  {
   "property": "C226",
   "status": "proved",
   "theorems": [
    "Verif.Sockopt.error_exact"
   ],
   "note": "For every history."
  },
  {
   "property": "C227",
   "status": "partial",
   "theorems": [
    "Verif.Sockopt.inherit_partial",
    "Verif.Sockopt.autosize_violated",
    "Verif.Sockopt.size_fixed"
   ],
   "note": "Every readable option; refuted for the size being fixed: the accepted socket has SB_AUTOSIZE again."
  },
  {
   "property": "C228",
   "status": "partial",
   "theorems": [
    "Verif.Cli.called_partial",
    "Verif.Cli.called_only",
    "Verif.Cli.found_exact",
    "Verif.Cli.tokens_quoted",
    "Verif.Cli.trailing_violated",
    "Verif.Cli.placeholder_violated"
   ],
   "note": "Refuted: words behind a complete command are ignored, so a longer line than any command calls one; and the placeholder of a parameter, typed as it is shown, is accepted for it, and the function is called without a parameter. Lines of more than 49 words are not modelled."
  },
  {
   "property": "C229",
   "status": "partial",
   "theorems": [
    "Verif.Cli.add_partial",
    "Verif.Cli.add_violated"
   ],
   "note": "If no command that is there begins with its words; refuted otherwise: the program is stopped."
  },
  {
   "property": "C230",
   "status": "partial",
   "theorems": [
    "Verif.Cli.room_partial",
    "Verif.Cli.room_violated",
    "Verif.Cli.tokens_two"
   ],
   "note": "Lines of up to 98 characters; refuted for longer ones: 195 characters are written into a buffer of 100."
  },
  {
   "property": "C231",
   "status": "partial",
   "theorems": [
    "Verif.Cli.ip4_accepted",
    "Verif.Cli.octet_accepted",
    "Verif.Cli.ip4_partial",
    "Verif.Cli.ip4_range_violated",
    "Verif.Cli.ip4_hex_violated"
   ],
   "note": "Every right address; refuted for numbers from 256 to 999 and for hexadecimal ones, which are accepted too."
  },
  {
   "property": "C232",
   "status": "partial",
   "theorems": [
    "Verif.Cli.ip6_full",
    "Verif.Cli.ip6_partial",
    "Verif.Cli.ip6_accepted",
    "Verif.Cli.bytes_exact",
    "Verif.Cli.ip6_seven_violated",
    "Verif.Cli.ip6_double_violated"
   ],
   "note": "All eight groups, and two colons with up to seven groups in most places; refuted for two colons with seven groups before or after them (refused) and for two pairs of colons (accepted)."
  },
  {
   "property": "C233",
   "status": "proved",
   "theorems": [
    "Verif.Cli.typed_exact",
    "Verif.Cli.keys_prints"
   ],
   "note": "For every set of commands and what they call."
  },
  {
   "property": "C234",
   "status": "partial",
   "theorems": [
    "Verif.Cli.buffer_partial",
    "Verif.Cli.buffer_violated"
   ],
   "note": "Any bytes but tabs and question marks; refuted for these: completion does not look at the room that is left."
  },
  {
   "property": "C235",
   "status": "partial",
   "theorems": [
    "Verif.Cli.tab_partial",
    "Verif.Cli.tab_violated"
   ],
   "note": "Behind the first word of a command and behind blanks; refuted behind parameters: what is left of their placeholder is put into the line."
  },
  {
   "property": "C236",
   "status": "partial",
   "theorems": [
    "Verif.Cli.recall_partial",
    "Verif.Cli.recall_violated"
   ],
   "note": "Earlier lines, up to eight, each different from the one before it; refuted for the key for later ones: it first goes one step further back."
  },
  {
   "property": "C237",
   "status": "partial",
   "theorems": [
    "Verif.Cli.telnet_partial",
    "Verif.Cli.telnet_violated",
    "Verif.Cli.arrows",
    "Verif.Cli.delete_violated"
   ],
   "note": "Negotiations, the display size, arrow keys; refuted for telnet commands of two bytes, which swallow the next character, and for the delete key, which types a tilde."
  },
  {
   "property": "C238",
   "status": "partial",
   "theorems": [
    "Verif.Cli.alias_partial",
    "Verif.Cli.set_prefix_violated",
    "Verif.Cli.run_prefix_violated"
   ],
   "note": "Up to 16 aliases, of which none is named like the beginning of another, and which are no commands; refuted for names that are the beginning of others: setting the shorter one changes the longer one, and the longer one may run the shorter one."
  },
  {
   "property": "C239",
   "status": "partial",
   "theorems": [
    "Verif.Cli.once_partial",
    "Verif.Cli.once_violated"
   ],
   "note": "If the commands of aliases are no aliases; refuted for an alias of an alias: it is not carried out, and the next line, whatever it is, carries it out too."
  },
  {
   "property": "C240",
   "status": "partial",
   "theorems": [
    "Verif.Cli.alias_partial",
    "Verif.Cli.empty_violated"
   ],
   "note": "For names that are no commands and commands that are not empty; refuted for the empty one: strdup of NULL. See C229 for names that commands begin with."
  },
  {
   "property": "C241",
   "status": "partial",
   "theorems": [
    "Verif.Stat.measured_exact",
    "Verif.Stat.rate_partial",
    "Verif.Stat.missed_violated"
   ],
   "note": "If the numbers of the threads are below that of threads, for periods of at most a second; refuted for other threads: their packets are not counted. The rate ends up to one packet per second too low."
  },
  {
   "property": "C242",
   "status": "partial",
   "theorems": [
    "Verif.Stat.one_partial",
    "Verif.Stat.two_violated"
   ],
   "note": "If the flag is only set again when the timer has run off; refuted otherwise: there is one timer more for good."
  },
  {
   "property": "C243",
   "status": "partial",
   "theorems": [
    "Verif.Stat.fire_partial",
    "Verif.Stat.zero_violated"
   ],
   "note": "If the clock has advanced; refuted for two timers (C242) at the same time: division by zero."
  },
  {
   "property": "C244",
   "status": "proved",
   "theorems": [
    "Verif.Util.has_mac_exact"
   ],
   "note": ""
  }
 ]
}