{"id": "C01", "title": "Buffer checksum is the Internet checksum", "statement": "ofp_cksum_buffer(addr,len) returns the RFC 1071 Internet checksum (one's complement of the one's complement sum of the 16-bit words, last odd byte zero-padded) of the len bytes at addr, whatever the alignment of addr.", "quantifier": "every byte string of every length below 2^33, every start alignment", "why_tests_cant": "the value depends on the whole buffer, its length modulo 32 and its alignment; tests sample a handful of packets", "anchors": ["src/ofp_in_cksum.c: ofp_cksum_buffer, ofp_cksum_fold"]}
{"id": "C02", "title": "IP header checksum is the Internet checksum", "statement": "ofp_cksum_iph(hdr,hl) returns the Internet checksum of the 4*hl bytes of the header for every legal header length, and a header whose checksum field holds the computed value verifies to 0; any single 16-bit-word change of a valid header (other than 0x0000<->0xffff) is detected.", "quantifier": "every header content, every ip_hl in 5..15, every 2-byte alignment", "why_tests_cant": "all option contents and all header lengths cannot be enumerated", "anchors": ["src/ofp_in_cksum.c: ofp_cksum_iph"]}
{"id": "C03", "title": "Packet checksum does not depend on segmentation", "statement": "ofp_cksum(pkt,off,len) equals the Internet checksum of bytes off..off+len of the packet however the packet is split into segments.", "quantifier": "every packet, every split into segments (odd and empty ones included), every off and len inside the packet", "why_tests_cant": "segment boundaries come from the packet I/O layer; tests use single-segment packets", "anchors": ["src/ofp_in_cksum.c: ofp_cksum"]}
{"id": "C04", "title": "Forwarding keeps the header checksum valid", "statement": "When an IPv4 packet with a valid header checksum is forwarded, TTL is decremented by exactly one, no other field but the checksum changes, and the updated header still has a valid checksum.", "quantifier": "every valid IPv4 header with TTL > 1", "why_tests_cant": "2^16 checksum values times all headers; the carry cases (checksum 0xfeff/0xffff) are rare", "anchors": ["src/ofp_pkt_processing.c: ofp_ipv4_processing"]}
{"id": "C05", "title": "IPv4 longest prefix match (radix tables)", "statement": "After any sequence of route additions and deletions, a next-hop lookup of an address returns the data of the longest stored prefix covering it (the most recently added data for that prefix), and nothing when no stored prefix covers it.", "quantifier": "every history of adds and deletes with mask length 0..32, every looked-up address", "why_tests_cant": "needs all histories and all 2^32 addresses", "anchors": ["src/ofp_rt_lookup.c: ofp_rtl_insert, ofp_rtl_remove", "include/ofpi_rt_lookup.h: ofp_rtl_search"]}
{"id": "C06", "title": "Failed route addition changes nothing", "statement": "When a route addition reports failure because the node pool is exhausted, the route table contents and the number of free nodes are exactly as before; otherwise the route is present.", "quantifier": "every table state, every pool level", "why_tests_cant": "out-of-memory at each possible depth of the path is a different crash point", "anchors": ["src/ofp_rt_lookup.c: ofp_rtl_insert (nomem), NODEALLOC, NODEFREE"]}
{"id": "C07", "title": "Route table memory is conserved", "statement": "After any history of adds and deletes the allocated-node counter equals the number of nodes of the trees, allocated plus free nodes equals the pool size, and deleting every route returns every node but the root.", "quantifier": "every history", "why_tests_cant": "leaks show only after long histories", "anchors": ["src/ofp_rt_lookup.c: NODEALLOC, NODEFREE, ofp_rtl_remove, ofp_rtl_destroy"]}
{"id": "C08", "title": "Route listing is exact", "statement": "Listing the route table calls the callback exactly once for each stored prefix, with that prefix and its data, and for nothing else.", "quantifier": "every reachable table", "why_tests_cant": "all tables", "anchors": ["src/ofp_rt_lookup.c: ofp_rtl_traverse, traverse"]}
{"id": "C09", "title": "Exact route query", "statement": "An exact-prefix query returns an entry if and only if that very prefix is currently in the table.", "quantifier": "every history, every prefix", "why_tests_cant": "presence must hold for every interleaving of adds/deletes of overlapping prefixes", "anchors": ["src/ofp_rt_lookup.c: ofp_rtl_search_exact"]}
{"id": "C10", "title": "IPv6 longest prefix match", "statement": "After any history of IPv6 route additions and deletions a lookup returns the longest stored prefix covering the address; adding a prefix that is already present leaves the existing entry in force.", "quantifier": "every history with mask length 0..128, every 16-byte address", "why_tests_cant": "2^128 addresses", "anchors": ["src/ofp_rt_lookup.c: ofp_rtl_insert6, ofp_rtl_remove6", "include/ofpi_rt_lookup.h: ofp_rtl_search6"]}
{"id": "C11", "title": "IPv6 routing never touches memory outside the 16-byte address", "statement": "Lookup, insertion, removal and listing of IPv6 routes read and write only bytes 0..15 of the address buffers.", "quantifier": "every table, every address and mask length 0..128", "why_tests_cant": "the out-of-range byte is silently readable in most layouts, so tests pass", "anchors": ["include/ofpi_rt_lookup.h: ofp_rtl_search6, ofp_rt_bit_set, ofp_rt_reset_bit", "src/ofp_rt_lookup.c: ofp_rtl_traverse6, ofp_rtl_insert6"]}
{"id": "C12", "title": "IPv4 longest prefix match (mtrie tables, default build)", "statement": "After any history of route additions and deletions a next-hop lookup returns the longest stored prefix covering the address.", "quantifier": "every history with mask length 0..32, every address", "why_tests_cant": "needs all histories and all addresses; overwrite/restore of covered ranges depends on order", "anchors": ["src/ofp_rt_mtrie_lookup.c: ofp_rtl_insert, ofp_rtl_remove, ofp_rtl_search, ofp_rt_rule_find_prefix_match"]}
{"id": "C13", "title": "mtrie deletion is safe and returns its nodes", "statement": "Deleting a stored route never dereferences a null or freed table node, and after all routes are deleted all 8-bit table nodes are free again.", "quantifier": "every history", "why_tests_cant": "crash depends on the exact address bytes and on which routes are last", "anchors": ["src/ofp_rt_mtrie_lookup.c: ofp_rtl_remove, NODEFREE, dec_use_reference"]}
{"id": "C14", "title": "VRF isolation", "statement": "Adding or deleting a route in one VRF never changes any lookup in another VRF, and route messages for a VRF id at or above the configured number are refused without effect.", "quantifier": "every history over any number of VRFs", "why_tests_cant": "all cross-VRF histories", "anchors": ["src/ofp_route.c: ofp_set_route_msg, add_route, del_route, ofp_get_next_hop"]}
{"id": "C15", "title": "ARP lookup returns the latest MAC for the key", "statement": "After any history of ARP inserts, removals, ageing and lookups, looking up (vrf, address) returns the MAC most recently inserted for exactly that key if it is present and complete, and fails otherwise; the per-set cache never changes an answer.", "quantifier": "every history, every hash placement", "why_tests_cant": "collisions and cache staleness depend on history and hash", "anchors": ["src/ofp_arp.c: ofp_arp_ipv4_insert_entry, ofp_ipv4_lookup_mac, ofp_ipv4_lookup_arp_entry_idx, remove_entry"]}
{"id": "C16", "title": "ARP entries are conserved", "statement": "Every ARP entry is at any time either on the free list or in exactly one set, no key is present twice, and the pool never loses entries.", "quantifier": "every history", "why_tests_cant": "long histories", "anchors": ["src/ofp_arp.c: entry_alloc, entry_free, insert_new_entry, remove_entry"]}
{"id": "C17", "title": "Packets waiting for ARP are sent once, in order, or freed", "statement": "Every packet saved while a MAC address is unresolved is, when the address resolves, transmitted exactly once in the order saved, and is freed when resolution times out.", "quantifier": "every history of saves, resolutions and timeouts", "why_tests_cant": "needs all interleavings; a leak shows only over time", "anchors": ["src/ofp_arp.c: ofp_arp_save_ipv4_pkt, ofp_arp_ipv4_insert, ofp_arp_ipv4_remove_entry"]}
{"id": "C18", "title": "ARP entries used by a route stay, manual entries never age", "statement": "While a route holds a reference to an ARP entry ageing and timeouts do not remove it; entries added manually are never aged out; entries idle longer than the timeout with no references are removed by the ageing pass.", "quantifier": "every history, every clock value", "why_tests_cant": "all timings", "anchors": ["src/ofp_arp.c: ofp_arp_age_cb, ofp_arp_inc_ref_count, ofp_arp_dec_ref_count, ofp_arp_ipv4_remove_entry"]}
{"id": "C19", "title": "IP reassembly never invents or misplaces data", "statement": "If all fragments received for a datagram (any order, duplicated, overlapping, interleaved with fragments of other datagrams) are slices of one payload D, every packet that reassembly returns for it carries exactly payload D.", "quantifier": "every arrival sequence, any number of interleaved datagrams", "why_tests_cant": "factorially many arrival orders and overlap patterns", "anchors": ["src/ofp_reass.c: ofp_ip_reass"]}
{"id": "C20", "title": "IP reassembly completes", "statement": "If a datagram is cut into disjoint fragments (at most the per-packet limit) and all of them arrive, in any order, the last one to arrive makes reassembly return the datagram.", "quantifier": "every partition, every permutation of arrival", "why_tests_cant": "factorially many orders", "anchors": ["src/ofp_reass.c: ofp_ip_reass"]}
{"id": "C21", "title": "Reassembly keeps working after timeouts", "statement": "The number of reassembly queues accounted for equals the number of queues that exist, so dropped or timed-out datagrams never prevent later datagrams from being reassembled.", "quantifier": "every history of fragments and timer ticks", "why_tests_cant": "needs more than a thousand incomplete datagrams in one run", "anchors": ["src/ofp_reass.c: ofp_ip_reass (nipq), ip_freef, slow_tmo"]}
{"id": "C22", "title": "Fragmentation is faithful", "statement": "A packet longer than the MTU is sent as fragments, none longer than the MTU, whose payloads concatenated in order are the original payload, with correct 8-byte-unit offsets and MF set on all but the last (which keeps the original MF), and options copied as their copied flag demands.", "quantifier": "every payload, header length, MTU >= header+8", "why_tests_cant": "all sizes and MTUs", "anchors": ["src/ofp_pkt_processing.c: ofp_fragment_pkt"]}
{"id": "C23", "title": "Fragment then reassemble is the identity", "statement": "Fragmenting any packet and delivering its fragments in any order to reassembly returns a packet with the original payload.", "quantifier": "every payload, every MTU, every permutation (up to the fragment limit)", "why_tests_cant": "product of C20 and C22", "anchors": ["src/ofp_pkt_processing.c: ofp_fragment_pkt", "src/ofp_reass.c: ofp_ip_reass"]}
{"id": "C24", "title": "Fragmentation terminates", "statement": "Fragmenting a packet always terminates, whatever the option bytes and the MTU.", "quantifier": "every options area, every MTU", "why_tests_cant": "a test that hits the bad case hangs rather than fails; inputs are adversarial", "anchors": ["src/ofp_pkt_processing.c: ofp_fragment_pkt"]}
{"id": "C25", "title": "Long timers fire exactly once, on time", "statement": "A timer started with a timeout of s seconds (10 <= s <= 8192) that is not cancelled fires exactly once, on the s-th one-second tick after the start, whatever other timers are started and cancelled meanwhile.", "quantifier": "every history of starts, cancels and ticks", "why_tests_cant": "wheel wrap-around after 8192 ticks and all interleavings", "anchors": ["src/ofp_timer.c: ofp_timer_start, one_sec"]}
{"id": "C26", "title": "Timer cancellation is exact", "statement": "Cancelling a pending long timer returns 0 and it never fires; cancelling it again or after it fired returns -1; no other timer is affected; handles are distinct and never the invalid handle (as long as fewer than 2^50 long timers have been started).", "quantifier": "every history", "why_tests_cant": "all interleavings", "anchors": ["src/ofp_timer.c: ofp_timer_cancel"]}
{"id": "C27", "title": "epoll registration behaves like a map", "statement": "epoll_ctl add/mod/del behave like a finite map from descriptors to events with EEXIST, ENOENT, ENOSPC, EBADF and EINVAL exactly when specified, with no other effect on failure.", "quantifier": "every history of calls", "why_tests_cant": "all histories", "anchors": ["src/ofp_epoll.c: ofp_epoll_ctl"]}
{"id": "C28", "title": "epoll_wait reports only and all ready descriptors", "statement": "epoll_wait returns at most maxevents events, each registered for input and readable, without repetition, and all of them if there are no more than maxevents.", "quantifier": "every set, every readiness pattern, every maxevents", "why_tests_cant": "2^n readiness patterns", "anchors": ["src/ofp_epoll.c: ofp_epoll_wait, available_events"]}
{"id": "C29", "title": "TCP sequence comparison is wrap-around safe", "statement": "SEQ_LT/LEQ/GT/GEQ/MAX/MIN on 32-bit sequence numbers agree with comparison of the underlying stream offsets whenever these are less than 2^31 apart, and LT is the strict part of LEQ.", "quantifier": "every pair of 32-bit numbers", "why_tests_cant": "2^64 pairs", "anchors": ["include/ofpi_tcp_seq.h: SEQ_LT, SEQ_LEQ, SEQ_GT, SEQ_GEQ"]}
{"id": "C30", "title": "TCP reassembly delivers exactly the byte stream", "statement": "Whatever the order, duplication and overlap of received segments (all agreeing with one stream), the bytes appended to the receive buffer are exactly the stream from the initial rcv_nxt to the current one, in order, each once, also across sequence wrap-around.", "quantifier": "every segment sequence within the window", "why_tests_cant": "all orders and overlaps", "anchors": ["src/ofp_tcp_reass.c: ofp_tcp_reass"]}
{"id": "C31", "title": "TCP reassembly queue is bounded and released", "statement": "The number of queued out-of-order segments never exceeds the receive-buffer limit plus one, and discarding the queue on close frees every held packet.", "quantifier": "every history", "why_tests_cant": "long histories, leaks", "anchors": ["src/ofp_tcp_reass.c: ofp_tcp_reass, ofp_tcp_reass_flush"]}
{"id": "C32", "title": "SACK reports are truthful", "statement": "The SACK blocks reported to the peer number at most six, are non-empty and pairwise disjoint and non-adjacent, nothing is reported on a connection that did not negotiate SACK, and every byte reported is held in the reassembly queue or already delivered (the receiver never claims a byte it has dropped).", "quantifier": "every history of segments with arbitrary sequence numbers, lengths, windows, queue limits and memory shortage", "why_tests_cant": "all arrival orders and overlaps, and the interplay of three functions (window trimming, reassembly, report)", "anchors": ["src/ofp_tcp_sack.c: ofp_tcp_update_sack_list", "src/ofp_tcp_input.c: ofp_tcp_do_segment", "src/ofp_tcp_reass.c: ofp_tcp_reass"]}
{"id": "C33", "title": "SACK scoreboard is sound", "statement": "After any ACK/SACK the retransmission holes are ordered, separated, non-empty, lie within the outstanding range below the highest SACKed byte, contain no byte that was acknowledged, nor (unless memory for a hole was refused) a byte of a believable SACK block of this ACK; the hole counter equals the number of holes and stays within the configured limit.", "quantifier": "every history of sends, ACKs with arbitrary (also hostile) SACK blocks, retransmissions, allocation failures", "why_tests_cant": "adversarial SACK blocks", "anchors": ["src/ofp_tcp_sack.c: ofp_tcp_sack_doack, tcp_sackhole_alloc, tcp_sackhole_insert, tcp_sackhole_remove"]}
{"id": "C34", "title": "Socket buffers are byte queues", "statement": "Copying out at an offset and dropping from the front return exactly the bytes appended, in order; the byte counter equals the number of bytes held; a full buffer refuses a packet without disturbing what is held.", "quantifier": "every history of appends, drops and reads", "why_tests_cant": "ring wrap-around and all sizes", "anchors": ["src/ofp_uipc_sockbuf.c: ofp_sockbuf_put_last, ofp_sockbuf_copy_out, sbdrop_internal, ofp_sockbuf_remove_first"]}
{"id": "C35", "title": "IPsec policy lookup honours priority", "statement": "The action applied to a packet is that of a matching policy of minimal priority value in the packet's direction, and the default when none matches; lookup order never depends on insertion order among different priorities.", "quantifier": "every policy set, every packet", "why_tests_cant": "all policy sets", "anchors": ["src/ofp_ipsec_spd.c: sp_insert, sp_lookup, sel_match"]}
{"id": "C36", "title": "IPsec policy objects live exactly as long as referenced", "statement": "A policy object is returned to the free pool exactly when it was removed from the database and its last handle was released; two live policies never share an id or storage.", "quantifier": "every history of add, del, find, first/next, unref", "why_tests_cant": "all histories", "anchors": ["src/ofp_ipsec_spd.c: ofp_ipsec_sp_add, ofp_ipsec_sp_del, sp_unref, ofp_ipsec_sp_next"]}
{"id": "C37", "title": "Interface names round-trip", "statement": "Parsing the printed name of a (port, vlan) pair gives the pair back, for physical, VLAN, GRE, VXLAN and local interfaces.", "quantifier": "every port and vlan number", "why_tests_cant": "2^31 numbers", "anchors": ["src/ofp_util.c: ofp_name_to_port_vlan, ofp_port_vlan_to_ifnet_name"]}
{"id": "C38", "title": "Mask length conversions are exact", "statement": "The IPv6 mask built from length n has exactly its first n bits set; the length computed from a contiguous mask is the number of set bits.", "quantifier": "every length", "why_tests_cant": "small domain but every byte position/carry; stated for all", "anchors": ["src/ofp_util.c: ofp_ip6_masklen_to_mask, ofp_mask_length"]}
{"id": "C39", "title": "Link-local addresses are faithful", "statement": "The IPv6 link-local address derived from a MAC has prefix fe80::/64 and distinct MACs give distinct addresses.", "quantifier": "every MAC", "why_tests_cant": "2^48 MACs", "anchors": ["src/ofp_util.c: ofp_mac_to_link_local"]}
{"id": "C40", "title": "Memory zones keep handles apart", "statement": "Allocating from a zone never returns an object that is still allocated, freeing returns it to the zone it came from, and zone ids out of range are refused.", "quantifier": "every history", "why_tests_cant": "all histories", "anchors": ["src/ofp_uma.c: ofp_uma_pool_create, ofp_uma_pool_alloc, ofp_uma_pool_free, ofp_uma_pool_destroy"]}
{"id": "C41", "title": "Transport checksum is the pseudo-header checksum", "statement": "ofp_in4_cksum returns the RFC 1071 checksum of the IPv4 pseudo header (source, destination, protocol, transport length) followed by the transport segment: it is the right value to store when the checksum field is zero, and 0 exactly when the received segment is intact.", "quantifier": "every IPv4 packet (any header length, protocol, addresses, payload), every segmentation and alignment of the packet buffer", "why_tests_cant": "depends on payload bytes, on how the packet is cut into segments, on odd segment lengths and on carries; a test covers a few packets only", "anchors": ["src/ofp_in_cksum.c:ofp_in4_cksum", "src/ofp_in_cksum.c:ofp_cksum", "src/ofp_udp_usrreq.c:ofp_udp_input", "src/ofp_tcp_input.c:ofp_tcp_input"]}
{"id": "C42", "title": "select reports exactly the readable descriptors", "statement": "ofp_select(nfds, readfds, ..., timeout) blocks exactly when the timeout is absent or positive and no descriptor below nfds in the set is readable; it returns the number of descriptors below nfds in the set that are readable and leaves exactly those in the set; OFP_FD_SET/CLR/ZERO/ISSET behave as operations on a set of descriptors and never leave the array for socket descriptors.", "quantifier": "every set, nfds, timeout and readability of the descriptors", "why_tests_cant": "the set of (set, nfds, readability) combinations is exponential; the wrap of the timeout needs extreme values", "anchors": ["src/ofp_syscalls.c: _ofp_select, set_ready_fds, none_of_ready, to_usec, OFP_FD_SET, OFP_FD_CLR, OFP_FD_ISSET, OFP_FD_ZERO"]}
{"id": "C43", "title": "Hexadecimal arguments are read exactly", "statement": "ofp_hex_to_num(s) returns the value of the hexadecimal digits at the front of s (after nothing else), for every 32-bit value a user may type, in lower or upper case.", "quantifier": "every string", "why_tests_cant": "The input is an arbitrary string; a test fixes a few.", "anchors": ["src/ofp_util.c:ofp_hex_to_num"]}
{"id": "C44", "title": "Reassembly stores a bounded number of fragments per datagram", "statement": "However many fragments arrive for a datagram that is not complete, at most 16 of them are stored; the next one that does not complete the datagram makes it be discarded.", "quantifier": "every history of received fragments, well-formed or not", "why_tests_cant": "Depends on the whole history of arrivals including malformed ones.", "anchors": ["src/ofp_reass.c:ofp_ip_reass", "src/ofp_reass.c:ip_freef"]}
{"id": "C45", "title": "Life time of an incomplete datagram", "statement": "An incomplete datagram is kept at least 15 seconds (or the TTL of its fragments if larger) after its first fragment arrived, and everything is discarded after at most 256 seconds of silence.", "quantifier": "every arrival order, every history", "why_tests_cant": "Depends on arrival order and on the content of uninitialised packet headroom.", "anchors": ["src/ofp_reass.c:ofp_ip_reass", "src/ofp_reass.c:slow_tmo"]}
{"id": "C46", "title": "Reassembly keeps VRFs apart", "statement": "Fragments received in different VRFs are never put together into one datagram.", "quantifier": "every history, every pair of VRFs", "why_tests_cant": "Needs identical identification fields in two VRFs at the same time.", "anchors": ["src/ofp_reass.c:ofp_ip_reass"]}
{"id": "C47", "title": "Duplicates and overlaps do not prevent reassembly", "statement": "Once the received fragments of a datagram (all pieces of one payload, duplicated or overlapping in any way) cover all of it, the datagram is delivered.", "quantifier": "every arrival sequence with repetitions and overlaps", "why_tests_cant": "Unbounded number of arrival sequences.", "anchors": ["src/ofp_reass.c:ofp_ip_reass"]}
{"id": "C48", "title": "MSG_PEEK is non-destructive and exact", "statement": "Receiving with MSG_PEEK returns the bytes the next ordinary receive of the same length would return, removes nothing from the socket, and the call terminates.", "quantifier": "every content of a stream receive buffer, every requested length", "why_tests_cant": "The copy loop depends on how the bytes are split over packets and on packet lengths; tests only try a few splits.", "anchors": ["src/ofp_uipc_socket.c: ofp_soreceive_generic", "src/ofp_uipc_sockbuf.c"]}
{"id": "C49", "title": "Datagram receive returns exactly one datagram", "statement": "On a datagram socket one receive returns the first min(length, size) bytes of the oldest queued datagram, reports truncation exactly when bytes were cut, and removes exactly that datagram.", "quantifier": "every queue content, every requested length", "why_tests_cant": "All combinations of lengths and queue states cannot be enumerated.", "anchors": ["src/ofp_uipc_socket.c: ofp_soreceive_dgram"]}
{"id": "C50", "title": "End of stream only after the whole stream", "statement": "The application is told that the peer has finished only after every byte before the FIN has been delivered to it.", "quantifier": "every stream, every order, overlap and loss pattern of its segments, every receive window", "why_tests_cant": "Depends on how a FIN-carrying segment interacts with the window at that moment; there are unboundedly many histories.", "anchors": ["src/ofp_tcp_input.c: ofp_tcp_do_segment", "src/ofp_tcp_reass.c: ofp_tcp_reass"]}
{"id": "C51", "title": "A route always uses the ARP entry of its own gateway", "statement": "After any history of route additions, failed additions, replacements and deletions mixed with ARP learning, packet saving, timeouts and ageing, a packet sent through an installed route is sent to the MAC address of that route's gateway or waits for it; it is never sent to the MAC address of another host, and the gateway's ARP entry stays while the route exists.", "quantifier": "every history and interleaving of route and ARP operations", "why_tests_cant": "stale indexes show only under particular interleavings of ageing and route changes", "anchors": ["src/ofp_route.c: add_route, del_route, ofp_get_mac", "src/ofp_arp.c: ofp_arp_inc_ref_count, ofp_arp_dec_ref_count, ofp_arp_ipv4_remove_entry"]}
{"id": "C52", "title": "A manually configured ARP entry stays", "statement": "An ARP entry added manually stays in the table, whatever routes, packets and timers do.", "quantifier": "every history", "why_tests_cant": "needs all interleavings of routes, saved packets and timers with slot reuse", "anchors": ["src/ofp_arp.c: ofp_arp_dec_ref_count, ofp_arp_cleanup_pkt_list, entry_free", "src/cli/ofp_cli_arp.c"]}
{"id": "C53", "title": "Destroying a policy twice is refused and harmless", "statement": "Destroying a security policy removes exactly that policy; a second destroy of a handle that is still held returns an error and leaves policy lookup as it was.", "quantifier": "every history of policy calls, every handle still referenced", "why_tests_cant": "the damage depends on the order in which policies were linked and unlinked before", "anchors": ["src/ofp_ipsec_spd.c: ofp_ipsec_sp_lookup_del_sp", "src/ofp_ipsec.c: ofp_ipsec_sp_destroy"]}
{"id": "C54", "title": "The documented ANY address selector matches every address", "statement": "A selector address range whose first and last address are 0 covers every address, any other range covers exactly the addresses between first and last.", "quantifier": "every selector, every packet", "why_tests_cant": "all address pairs", "anchors": ["src/ofp_ipsec_spd.c: sel_match", "include/api/ofp_ipsec.h: ofp_ipsec_selectors_t"]}
{"id": "C55", "title": "Inbound SA selector check", "statement": "A decrypted packet passes the selector check exactly when the SA selectors cover it, or it is an ICMP error message about a packet the reversed selectors cover.", "quantifier": "every packet, every selector", "why_tests_cant": "all packets and header lengths", "anchors": ["src/ofp_ipsec_spd.c: icmp_match, ofp_ipsec_selector_match"]}
{"id": "C56", "title": "Outbound policy verdict", "statement": "An outbound packet with no policy or a BYPASS policy goes out in clear, one with a DISCARD policy is dropped, one with a PROTECT policy is given to the bound SA and dropped when there is none in use; a dropped packet leaves no lock held.", "quantifier": "every policy set and binding, every packet", "why_tests_cant": "all policy sets; a leaked lock shows only later", "anchors": ["include/ofpi_ipsec.h: ofp_ipsec_out_lookup", "src/ofp_ipsec.c: ofp_ipsec_out_lookup_priv, ofp_ipsec_sp_bind", "src/ofp_ipsec_spd.c: sp_lookup"]}
{"id": "C57", "title": "Flush removes exactly the policies of the VRF", "statement": "Flushing the policy database of a VRF destroys every policy of that VRF and no other, succeeds, and leaves the callers' references as they were.", "quantifier": "every database, every VRF", "why_tests_cant": "all databases; the loop deletes while it iterates", "anchors": ["src/ofp_ipsec.c: ofp_ipsec_sp_flush, ipsec_sp_flush", "src/ofp_ipsec_spd.c: ofp_ipsec_sp_next"]}
{"id": "C58", "title": "No missing byte is forgotten by the SACK sender", "statement": "A byte known to be missing stays scheduled for retransmission until it is acknowledged cumulatively or by a SACK block inside the outstanding data; and as long as holes could be allocated, the bytes in holes are exactly the outstanding bytes below the highest SACKed one that the peer has not reported.", "quantifier": "every history of sends, ACKs with arbitrary SACK blocks, retransmissions and timeouts, including refused allocations", "why_tests_cant": "a forgotten byte shows only for particular combinations of splits, trims and allocation failures", "anchors": ["src/ofp_tcp_sack.c: ofp_tcp_sack_doack"]}
{"id": "C59", "title": "SACK retransmission takes the lowest unsent hole", "statement": "The next hole chosen for retransmission is the lowest with bytes not yet retransmitted (none exactly if all are), the retransmission mark stays inside its hole, and the reported number of retransmitted bytes is exact.", "quantifier": "every reachable scoreboard", "why_tests_cant": "the cursor (nexthole hint) must survive every insertion, removal and split", "anchors": ["src/ofp_tcp_sack.c: ofp_tcp_sack_output, ofp_tcp_sack_doack", "src/ofp_tcp_output.c: ofp_tcp_output"]}
{"id": "C60", "title": "Skipping SACKed data never skips a missing byte", "statement": "Advancing snd_nxt over SACKed data (after a retransmission timeout) only moves forward, never past a missing byte or beyond what was sent, and ends on a missing byte or above all SACKed data.", "quantifier": "every reachable scoreboard and every snd_nxt in the outstanding range", "why_tests_cant": "all positions relative to all hole lists", "anchors": ["src/ofp_tcp_sack.c: ofp_tcp_sack_adjust"]}
{"id": "C61", "title": "The first SACK block covers the segment that triggered it", "statement": "When out-of-order data are accepted, the first block of the report contains all bytes of the segment (RFC 2018), and blocks reported before stay reported as long as there is room.", "quantifier": "every history, every accepted out-of-order segment", "why_tests_cant": "requires all overlaps of the segment with queued data", "anchors": ["src/ofp_tcp_sack.c: ofp_tcp_update_sack_list", "src/ofp_tcp_input.c: ofp_tcp_do_segment", "src/ofp_tcp_reass.c: ofp_tcp_reass"]}
{"id": "C62", "title": "TCP option parser is total, safe and exact", "statement": "For every option area of every received segment the parser terminates, never reads outside the segment, and yields exactly the options of the well-formed items before the first end-of-options byte or malformed item: unknown kinds and wrong lengths are skipped, the last duplicate counts, MSS/window scale/SACK-permitted only with SYN and SACK blocks only without.", "quantifier": "every byte string, every area length, SYN or not, SACK on or off", "why_tests_cant": "hostile byte strings are unbounded in kind; a single over-read needs one particular length byte", "anchors": ["src/ofp_tcp_input.c: tcp_dooptions"]}
{"id": "C63", "title": "SACK blocks handed on lie inside the segment and fit the array", "statement": "The SACK block pointer and count passed to the scoreboard cover bytes of the option area only, the count is at least one and at most four, so the five-element array of the consumer cannot overflow.", "quantifier": "every received option area of at most 40 bytes", "why_tests_cant": "memory safety for all inputs", "anchors": ["src/ofp_tcp_input.c: tcp_dooptions", "src/ofp_tcp_sack.c: ofp_tcp_sack_doack"]}
{"id": "C64", "title": "TCP options written never overrun the header", "statement": "Whatever options are requested together, the option writer returns the number of bytes it wrote, at most 40 and a multiple of four.", "quantifier": "every combination of requested options and every number of SACK blocks", "why_tests_cant": "overrun depends on combinations of padding and option sizes", "anchors": ["src/ofp_tcp_output.c: ofp_tcp_addoptions"]}
{"id": "C65", "title": "SYN options survive the wire", "statement": "Every combination of MSS, window scale, SACK-permitted and timestamps put on a SYN or SYN-ACK is found unchanged by the parser of a peer running the same code (window scale capped at 14); none is dropped for lack of room.", "quantifier": "all combinations and all field values", "why_tests_cant": "all values of 16 and 32 bit fields in all layouts", "anchors": ["src/ofp_tcp_output.c: ofp_tcp_addoptions", "src/ofp_tcp_input.c: tcp_dooptions"]}
{"id": "C66", "title": "Timestamps and SACK blocks survive the wire", "statement": "On segments without SYN the timestamps are found unchanged, and of the SACK blocks the first four (three with timestamps) in order and unchanged.", "quantifier": "all timestamp values, all block lists", "why_tests_cant": "all values and list lengths", "anchors": ["src/ofp_tcp_output.c: ofp_tcp_addoptions", "src/ofp_tcp_input.c: tcp_dooptions"]}
{"id": "C67", "title": "Packet delivery to the best matching socket", "statement": "An incoming IPv4 packet is handed to an IPv4 socket connected to its sender if there is one, else to one bound to the destination address and port, else to one bound to any address and that port, else to nobody - whatever the hash function, the collisions and the history of calls.", "quantifier": "every history of socket, setsockopt, bind, connect, sendto, disconnect, accept, time-wait and close calls, every hash function, every packet", "why_tests_cant": "chains depend on the history and the hash; tests see few collisions", "anchors": ["src/ofp_in_pcb.c: in_pcblookup_hash_locked", "in_pcbinshash_internal"]}
{"id": "C68", "title": "bind is exclusive and honours the reuse options", "statement": "bind to an address and port succeeds exactly when the address is usable and no socket stands in the way: without reuse options no socket of that port with an overlapping address, with SO_REUSEADDR no unconnected socket on exactly that address, with SO_REUSEPORT on both sockets even that. An implicit binding obeys the same rule.", "quantifier": "every history, every pair of option sets, every address and port", "why_tests_cant": "conflicts depend on all sockets alive and their options", "anchors": ["src/ofp_in_pcb.c: ofp_in_pcbbind_setup", "ofp_in_pcblookup_local", "src/ofp_udp_usrreq.c: udp_output"]}
{"id": "C69", "title": "Automatically chosen ports", "statement": "When the stack chooses the port it lies in the range the socket asked for and was free; the call fails with EADDRNOTAVAIL only if no port of the range is free.", "quantifier": "every history, every state of the search counter, every range of 16 bit ports, random or sequential search", "why_tests_cant": "wrap-around of a full cyclic search over any set of used ports", "anchors": ["src/ofp_in_pcb.c: ofp_in_pcb_lport"]}
{"id": "C70", "title": "One socket per connection", "statement": "No two sockets have the same local and remote address and port, so a packet of a connection reaches the socket that owns it.", "quantifier": "every history of calls", "why_tests_cant": "uniqueness over all interleavings of bind, connect, accept, disconnect and close", "anchors": ["src/ofp_in_pcb.c: ofp_in_pcbconnect_setup", "ofp_in_pcbconnect_mbuf", "src/ofp_tcp_syncache.c: syncache_socket"]}
{"id": "C71", "title": "Failed calls leave no trace", "statement": "A bind, datagram connect or sendto that fails changes no socket and no binding; binding a bound socket fails with EINVAL and changes nothing.", "quantifier": "every history, every failing call, memory exhaustion included", "why_tests_cant": "each failure point in each state", "anchors": ["src/ofp_in_pcb.c: ofp_in_pcbbind", "ofp_in_pcbconnect", "src/ofp_udp_usrreq.c: udp_output"]}
{"id": "C72", "title": "Reconnecting a datagram socket keeps what it was bound to", "statement": "After a connected datagram socket is disconnected (also implicitly by a second connect) it has the local address and port it was bound to before.", "quantifier": "every connected datagram socket", "why_tests_cant": "holds for all states or not at all", "anchors": ["src/ofp_udp_usrreq.c: udp_disconnect", "src/ofp_in_pcb.c: ofp_in_pcbdisconnect"]}
{"id": "C73", "title": "Closing a socket releases everything", "statement": "A closed socket is never found by a lookup, no other socket changes, and its address and port can be bound again.", "quantifier": "every history, every closed socket", "why_tests_cant": "a stale chain entry is a use after free in a later lookup", "anchors": ["src/ofp_in_pcb.c: ofp_in_pcbfree", "in_pcbremlists", "ofp_in_pcbdrop"]}
{"id": "C74", "title": "A packet buffer is never used after it was given away", "statement": "While a received IPv4 packet is processed, each buffer (the received one, ICMP errors, fragments) is freed or handed on (wire, loopback queue, ARP queue, tunnel, IPsec, hook, transport, slow path) at most once, whatever hooks, tables and allocations do.", "quantifier": "every packet, every outcome of every hook, policy, route lookup, ARP lookup, allocation and queue operation", "why_tests_cant": "each pair of failure points is a separate path; a double free corrupts the pool long after", "anchors": ["src/ofp_pkt_processing.c: ofp_packet_input", "ofp_ipv4_processing", "ofp_fragment_pkt", "ofp_ip_output_common_inline", "src/ofp_icmp.c: ofp_icmp_error", "icmp_reflect"]}
{"id": "C75", "title": "No packet buffer is lost", "statement": "After a received IPv4 packet was processed, every buffer allocated on the way and the received buffer itself has been freed or handed on.", "quantifier": "every packet, every outcome of hooks, routes, ARP and allocations", "why_tests_cant": "a leak shows only in rare error paths and after hours", "anchors": ["src/ofp_pkt_processing.c: ofp_packet_input", "ofp_fragment_pkt", "src/ofp_icmp.c: icmp_reflect", "icmp_send", "src/ofp_udp_usrreq.c: ofp_udp_input"]}
{"id": "C76", "title": "Forwarding", "statement": "A packet for another host is sent to the next hop of the longest-prefix route with its TTL decremented by one and its content unchanged, or as fragments of that; with a TTL of 1 or less it is never sent on but dropped with an ICMP time exceeded message; nothing else is sent on its behalf than ICMP messages to its source.", "quantifier": "every packet, every routing table, every hook and policy outcome", "why_tests_cant": "content of all packets, options, padding and sizes", "anchors": ["src/ofp_pkt_processing.c: ofp_ipv4_processing", "ofp_ip_output_common_inline"]}
{"id": "C77", "title": "What is sent fits the link and has a valid header", "statement": "No packet longer than the MTU of the outgoing interface is sent; a packet with DF that does not fit is answered with an ICMP message carrying that MTU; every packet sent has a valid header checksum.", "quantifier": "every received packet, every MTU of 68 to 65535, every environment", "why_tests_cant": "checksum arithmetic for all 16 bit values and all fragment sizes", "anchors": ["src/ofp_pkt_processing.c: ofp_ipv4_processing", "ofp_ip_output_common_inline", "ofp_fragment_pkt"]}
{"id": "C78", "title": "ICMP errors are never sent about ICMP errors", "statement": "No ICMP error is sent about an ICMP error, about a fragment other than the first, or about a packet whose source is no single host; sending an ICMP message never leads to unbounded recursion.", "quantifier": "every packet in transit, every environment", "why_tests_cant": "absence of loops over all packets", "anchors": ["src/ofp_icmp.c: ofp_icmp_error", "icmp_reflect"]}
{"id": "C79", "title": "Content of ICMP errors", "statement": "An ICMP error about a packet goes to its source, from an address of this router, and quotes the header and the first 8 bytes of the data of the offending packet, with valid checksums and no other bytes.", "quantifier": "every offending packet, every option length, every size", "why_tests_cant": "byte order mistakes show only for some lengths", "anchors": ["src/ofp_icmp.c: ofp_icmp_error", "icmp_reflect", "icmp_send"]}
{"id": "C80", "title": "Ping is answered exactly", "statement": "An ICMP echo request to an address of this host is answered with one echo reply from that address to its source with the same identifier, sequence number and data, and valid checksums.", "quantifier": "every echo request, every data length, every alignment, options included", "why_tests_cant": "checksum and content for all data", "anchors": ["src/ofp_icmp.c: _ofp_icmp_input", "icmp_reflect", "icmp_send"]}
{"id": "C81", "title": "No access outside the packet", "statement": "Processing an IPv4 packet never reads or writes outside the received frame.", "quantifier": "every packet whose header is consistent", "why_tests_cant": "out of bounds reads are silent", "anchors": ["src/ofp_icmp.c: _ofp_icmp_input", "icmp_timestamp_reply", "ofp_icmp_error", "icmp_deliver"]}
{"id": "C82", "title": "Packets for this host and broadcasts are not forwarded", "statement": "A packet for an address of this host, for the broadcast address of the receiving network or for 255.255.255.255 is not sent on to another host.", "quantifier": "every packet, every table", "why_tests_cant": "depends on all tables at once", "anchors": ["src/ofp_pkt_processing.c: ofp_ipv4_processing"]}
{"id": "C83", "title": "Corrupt headers are dropped", "statement": "A packet whose IPv4 header checksum (options included) is wrong, as computed or as reported by the hardware, is freed without any other effect; one whose checksum is right passes the check.", "quantifier": "every packet with any header content and options, either alignment", "why_tests_cant": "all header contents", "anchors": ["src/ofp_pkt_processing.c: ofp_ipv4_processing", "src/ofp_in_cksum.c: ofp_cksum_iph"]}
{"id": "C84", "title": "TCP sends exactly the bytes written", "statement": "Every payload byte of every segment a connection sends, first time or again, is the byte the application wrote at the stream position given by its sequence number.", "quantifier": "every history of writes, arriving segments, timers, closes, path-MTU changes, allocation and output failures after the handshake", "why_tests_cant": "losses, timers, window changes and allocation failures interleave without bound", "anchors": ["src/ofp_tcp_output.c: ofp_tcp_output", "src/ofp_tcp_input.c: ofp_tcp_do_segment", "src/ofp_tcp_usrreq.c: tcp_usr_send", "tcp_usrclosed", "src/ofp_tcp_timer.c: ofp_tcp_timer_rexmt", "ofp_tcp_timer_persist"]}
{"id": "C85", "title": "Written data is kept until acknowledged", "statement": "A byte handed to ofp_send stays available for retransmission until a segment arrives that acknowledges a sent and unacknowledged sequence number beyond it; then exactly the acknowledged bytes are released.", "quantifier": "every history, every arriving segment", "why_tests_cant": "losses, timers, window changes and allocation failures interleave without bound", "anchors": ["src/ofp_tcp_output.c: ofp_tcp_output", "src/ofp_tcp_input.c: ofp_tcp_do_segment", "src/ofp_tcp_usrreq.c: tcp_usr_send", "tcp_usrclosed", "src/ofp_tcp_timer.c: ofp_tcp_timer_rexmt", "ofp_tcp_timer_persist"]}
{"id": "C86", "title": "FIN", "statement": "A FIN is sent only after the application closed its side, always with the sequence number right behind the last byte written; FIN_WAIT_2 and TIME_WAIT are reached only when all data and the FIN have been acknowledged.", "quantifier": "every history", "why_tests_cant": "losses, timers, window changes and allocation failures interleave without bound", "anchors": ["src/ofp_tcp_output.c: ofp_tcp_output", "src/ofp_tcp_input.c: ofp_tcp_do_segment", "src/ofp_tcp_usrreq.c: tcp_usr_send", "tcp_usrclosed", "src/ofp_tcp_timer.c: ofp_tcp_timer_rexmt", "ofp_tcp_timer_persist"]}
{"id": "C87", "title": "The peer's window is respected", "statement": "Data sent, other than window probes and urgent data, lies within the window the peer advertised and within the congestion window.", "quantifier": "every history, every window advertisement, every congestion window", "why_tests_cant": "losses, timers, window changes and allocation failures interleave without bound", "anchors": ["src/ofp_tcp_output.c: ofp_tcp_output", "src/ofp_tcp_input.c: ofp_tcp_do_segment", "src/ofp_tcp_usrreq.c: tcp_usr_send", "tcp_usrclosed", "src/ofp_tcp_timer.c: ofp_tcp_timer_rexmt", "ofp_tcp_timer_persist"]}
{"id": "C88", "title": "What ends a connection", "statement": "A connection ends only because the application closed or aborted it, a retransmission or keep-alive limit was reached, an acceptable RST or SYN arrived, text arrived after close, or the closing handshake completed; an acceptable RST always ends it.", "quantifier": "every state, every event, every segment", "why_tests_cant": "losses, timers, window changes and allocation failures interleave without bound", "anchors": ["src/ofp_tcp_input.c: ofp_tcp_do_segment", "src/ofp_tcp_subr.c: ofp_tcp_drop", "ofp_tcp_close"]}
{"id": "C89", "title": "Sending returns", "statement": "A call that sends (ofp_send, a timer, input processing) returns after a bounded number of segments.", "quantifier": "every history, every outcome of allocation and IP output", "why_tests_cant": "absence of an endless loop under every sequence of failures", "anchors": ["src/ofp_tcp_output.c: ofp_tcp_output"]}
{"id": "C90", "title": "TCP state machine", "statement": "The connection state changes only along the transitions of the protocol, each with its trigger; writing, reading and timers that are not the last do not change it; ESTABLISHED is reached from the handshake only.", "quantifier": "every state, every event", "why_tests_cant": "all segments in all states", "anchors": ["src/ofp_tcp_output.c: ofp_tcp_output", "src/ofp_tcp_input.c: ofp_tcp_do_segment", "src/ofp_tcp_usrreq.c: tcp_usr_send", "tcp_usrclosed", "src/ofp_tcp_timer.c: ofp_tcp_timer_rexmt", "ofp_tcp_timer_persist"]}
{"id": "C91", "title": "Retransmission and persist timers exclude each other", "statement": "The retransmission and the persist timer of a connection never run at the same time.", "quantifier": "every history", "why_tests_cant": "losses, timers, window changes and allocation failures interleave without bound", "anchors": ["src/ofp_tcp_output.c: ofp_tcp_output", "src/ofp_tcp_input.c: ofp_tcp_do_segment", "src/ofp_tcp_usrreq.c: tcp_usr_send", "tcp_usrclosed", "src/ofp_tcp_timer.c: ofp_tcp_timer_rexmt", "ofp_tcp_timer_persist"]}
{"id": "C92", "title": "Unacknowledged data is always covered by a timer", "statement": "After each event, a connection with data in its send buffer has its retransmission or its persist timer running, so the data will eventually be sent (again).", "quantifier": "every history, every allocation failure", "why_tests_cant": "a connection that hangs forever shows only after a particular loss", "anchors": ["src/ofp_tcp_output.c: ofp_tcp_output", "src/ofp_tcp_input.c: ofp_tcp_do_segment", "src/ofp_tcp_usrreq.c: tcp_usr_send", "tcp_usrclosed", "src/ofp_tcp_timer.c: ofp_tcp_timer_rexmt", "ofp_tcp_timer_persist"]}
{"id": "C93", "title": "An owed acknowledgement is sent", "statement": "Received text is acknowledged at once or when the delayed-acknowledgement timer fires.", "quantifier": "every history, every allocation failure", "why_tests_cant": "losses, timers, window changes and allocation failures interleave without bound", "anchors": ["src/ofp_tcp_output.c: ofp_tcp_output", "src/ofp_tcp_input.c: ofp_tcp_do_segment", "src/ofp_tcp_timer.c: ofp_tcp_timer_delack"]}
{"id": "C94", "title": "Descriptors are unique", "statement": "A descriptor returned by ofp_socket or ofp_accept is none of those the application holds, and lies within the table; the application never holds a descriptor twice.", "quantifier": "every history of socket calls, connections, segments and timers, with any number of sockets", "why_tests_cant": "calls of several threads, arriving segments and timers interleave; a leak or a double release shows only after one particular order", "anchors": ["src/ofp_syscalls.c: ofp_socket", "ofp_accept", "ofp_close", "src/ofp_uipc_socket.c: soalloc", "sodealloc"]}
{"id": "C95", "title": "Sockets are not lost", "statement": "At any time every socket is in exactly one place: the pool, the application, the queue of one open listening socket, a running ofp_accept or ofp_close, or TCP until its connection is over. So when everything is closed and every connection is over all sockets are in the pool.", "quantifier": "every history", "why_tests_cant": "calls of several threads, arriving segments and timers interleave; a leak or a double release shows only after one particular order", "anchors": ["src/ofp_syscalls.c: ofp_accept", "ofp_close", "src/ofp_uipc_socket.c: ofp_sofree", "ofp_soclose", "src/ofp_tcp_usrreq.c: ofp_tcp_usr_accept", "ofp_tcp_usr_detach"]}
{"id": "C96", "title": "Accept order", "statement": "ofp_accept returns the established connections of a listening socket each exactly once, in the order they were established.", "quantifier": "every history, several threads in ofp_accept", "why_tests_cant": "calls of several threads, arriving segments and timers interleave; a leak or a double release shows only after one particular order", "anchors": ["src/ofp_syscalls.c: ofp_accept_internal", "src/ofp_uipc_socket.c: ofp_soisconnected", "ofp_sonewconn"]}
{"id": "C97", "title": "Backlog", "statement": "The number of connections pending at a listening socket is bounded by the backlog given to ofp_listen; the queue counters always equal the lengths of the queues and do not overflow.", "quantifier": "every history, every backlog", "why_tests_cant": "calls of several threads, arriving segments and timers interleave; a leak or a double release shows only after one particular order", "anchors": ["src/ofp_uipc_socket.c: ofp_solisten", "ofp_sonewconn", "solisten_proto"]}
{"id": "C98", "title": "Closing a listening socket", "statement": "When ofp_close of a listening socket has returned nothing waits at it, no socket refers to it, and the pending connections are aborted: their sockets are back in the pool or kept by TCP in TIME_WAIT only.", "quantifier": "every history", "why_tests_cant": "calls of several threads, arriving segments and timers interleave; a leak or a double release shows only after one particular order", "anchors": ["src/ofp_uipc_socket.c: ofp_soclose", "ofp_soabort"]}
{"id": "C99", "title": "No use of a freed socket", "statement": "No socket is freed while a connection works on it, and no call, event or timer follows a null or stale pointer; a bad descriptor is answered with EBADF.", "quantifier": "every history", "why_tests_cant": "calls of several threads, arriving segments and timers interleave; a leak or a double release shows only after one particular order", "anchors": ["src/ofp_uipc_socket.c: ofp_sofree", "ofp_soclose", "src/ofp_syscalls.c: ofp_close", "src/ofp_tcp_usrreq.c: ofp_tcp_usr_close"]}
{"id": "C100", "title": "Sleeper records are not lost", "statement": "Sleeping and waking behaves as if there were no records and lists: a call of ofp_msleep fails with ENOMEM exactly when as many threads as there are records are inside ofp_msleep, and every record is free or held by exactly one such thread.", "quantifier": "every history of sleeps, wakeups, timeouts and returns by any number of threads", "why_tests_cant": "sleeping, waking and timers interleave freely; a lost or misdirected wakeup shows only in one particular interleaving", "anchors": ["src/ofp_uipc_socket.c: ofp_msleep", "_ofp_wakeup", "ofp_socket_init_global"]}
{"id": "C101", "title": "Wakeups are exact", "statement": "A thread returns from ofp_msleep exactly when it has been woken. ofp_wakeup on a channel wakes all threads that sleep on that channel or on the null channel and no others; ofp_wakeup_one wakes all on the null channel and exactly one on the channel, the one that went to sleep last.", "quantifier": "every history, every channel", "why_tests_cant": "sleeping, waking and timers interleave freely; a lost or misdirected wakeup shows only in one particular interleaving", "anchors": ["src/ofp_uipc_socket.c: ofp_wakeup", "ofp_wakeup_one", "_ofp_wakeup"]}
{"id": "C102", "title": "Timeouts are exact", "statement": "When a timeout runs out exactly the thread that asked for it returns, with EWOULDBLOCK, and a thread that was woken in time or asked for no timeout does not see one.", "quantifier": "every history", "why_tests_cant": "sleeping, waking and timers interleave freely; a lost or misdirected wakeup shows only in one particular interleaving", "anchors": ["src/ofp_uipc_socket.c: sleep_timeout", "ofp_msleep", "src/ofp_syscalls.c: ofp_select", "src/ofp_epoll.c: ofp_epoll_wait"]}
{"id": "C103", "title": "No lost wakeup", "statement": "A thread does not stay blocked in ofp_accept, ofp_recv, ofp_select or ofp_epoll_wait while what it waits for is there: the connection, the data or the end of the stream wakes it.", "quantifier": "every interleaving of any number of waiting threads with those that complete connections, append data or disconnect", "why_tests_cant": "sleeping, waking and timers interleave freely; a lost or misdirected wakeup shows only in one particular interleaving", "anchors": ["src/ofp_syscalls.c: ofp_accept", "_ofp_select", "src/ofp_epoll.c: _ofp_epoll_wait", "src/ofp_uipc_sockbuf.c: ofp_sbwait", "ofp_sowakeup", "src/ofp_uipc_socket.c: ofp_soisconnected", "ofp_soisdisconnected"]}
{"id": "C104", "title": "A connection needs the peer's answer", "statement": "ofp_accept only ever delivers connections whose peer has shown that it received our SYN|ACK: the ACK acknowledges the initial sequence number of the SYN|ACK sent for a SYN of that connection, lies in the window, and that number cannot be known without having received the SYN|ACK.", "quantifier": "every history of SYNs, answers, ACKs, resets and ICMP errors on any number of threads, every packet content", "why_tests_cant": "SYNs, ACKs, resets and ICMP messages of any number of peers, honest or not, interleave on several threads; which entries exist and which secrets are current depends on the whole history", "anchors": ["src/ofp_tcp_syncache.c: ofp_syncache_expand", "syncookie_lookup", "syncookie_generate", "_syncache_add"]}
{"id": "C105", "title": "SYN cookies are honoured while they are fresh, and only then", "statement": "With cookies on, the ACK of any SYN|ACK sent during the last 16 seconds opens the connection even if nothing is stored about it, with the right sequence numbers, MSS and options; the ACK of a SYN|ACK sent long ago does not.", "quantifier": "every history of SYNs, answers, ACKs, resets and ICMP errors on any number of threads, every packet content, every timing", "why_tests_cant": "SYNs, ACKs, resets and ICMP messages of any number of peers, honest or not, interleave on several threads; which entries exist and which secrets are current depends on the whole history", "anchors": ["src/ofp_tcp_syncache.c: syncookie_generate", "syncookie_lookup"]}
{"id": "C106", "title": "Both sides use the options they agreed on", "statement": "A new connection uses window scaling, SACK, timestamps and ECN exactly if SYN and SYN|ACK both carried them, with the values they carried, and an MSS not above the peer's; the window scale offered is the least that covers the receive buffer.", "quantifier": "every history of SYNs, answers, ACKs, resets and ICMP errors on any number of threads, every packet content", "why_tests_cant": "SYNs, ACKs, resets and ICMP messages of any number of peers, honest or not, interleave on several threads; which entries exist and which secrets are current depends on the whole history", "anchors": ["src/ofp_tcp_syncache.c: syncache_socket", "syncache_respond", "_syncache_add", "syncookie_lookup"]}
{"id": "C107", "title": "The cache of half-open connections is bounded and loses nothing", "statement": "A bucket never has more than 30 entries; each record is free, in the hands of one thread, or in exactly one bucket, that of its connection; a SYN is taken up whenever a record is free or can be freed.", "quantifier": "every history of SYNs, answers, ACKs, resets and ICMP errors on any number of threads, every packet content", "why_tests_cant": "SYNs, ACKs, resets and ICMP messages of any number of peers, honest or not, interleave on several threads; which entries exist and which secrets are current depends on the whole history", "anchors": ["src/ofp_tcp_syncache.c: syncache_insert", "syncache_drop", "syncache_free", "_syncache_add"]}
{"id": "C108", "title": "Half-open connections go only for a reason, and go in the end", "statement": "A half-open connection is forgotten only when it is completed, when the peer resets it in the window, or when room is needed and it is the oldest; and one that is never answered is forgotten after some time.", "quantifier": "every history of SYNs, answers, ACKs, resets and ICMP errors on any number of threads, every packet content", "why_tests_cant": "SYNs, ACKs, resets and ICMP messages of any number of peers, honest or not, interleave on several threads; which entries exist and which secrets are current depends on the whole history", "anchors": ["src/ofp_tcp_syncache.c: syncache_drop", "ofp_syncache_chkrst", "ofp_syncache_unreach", "ofp_syncache_expand", "syncache_timer"]}
{"id": "C109", "title": "One half-open connection per connection", "statement": "A SYN and its retransmissions share one entry, and connections that differ in an address, a port or the VRF have entries of their own.", "quantifier": "every history of SYNs, answers, ACKs, resets and ICMP errors on any number of threads, every packet content", "why_tests_cant": "SYNs, ACKs, resets and ICMP messages of any number of peers, honest or not, interleave on several threads; which entries exist and which secrets are current depends on the whole history", "anchors": ["src/ofp_tcp_syncache.c: ofp_syncache_lookup", "_syncache_add", "ENDPTS_EQ"]}
{"id": "C110", "title": "SA handles stay good while they are held", "statement": "A caller holding a reference on an SA (from create, find, first, next, ref, or through a policy bound to it) can use it, even after the SA was destroyed: it always describes the SA it was given for, with its right status; the object is reused only after the SA left the database and every reference is gone, and then it is reused. find, first and next return what the database holds.", "quantifier": "every history of calls by any number of threads, every answer of ODP, every database size", "why_tests_cant": "creation, destruction (in several steps, with ODP answering in between), iteration, binding and handle release by any number of threads interleave; a wrong count shows only after the object was reused", "anchors": ["src/ofp_ipsec_sad.c: sa_alloc", "sa_free", "sa_ref", "sa_unref", "ofp_ipsec_sa_create", "ofp_ipsec_sa_next", "ofp_ipsec_sa_first", "ofp_ipsec_sa_find_by_id", "ofp_ipsec_sa_get_info", "src/ofp_ipsec.c: ofp_ipsec_sp_bind"]}
{"id": "C111", "title": "Identifiers and inbound SPIs are unique", "statement": "Two SAs in the database never share their identifier, inbound ones never share their SPI; a creation is refused only for a stated reason, and a refused creation changes nothing.", "quantifier": "every history of calls by any number of threads, every answer of ODP, every database size", "why_tests_cant": "creation, destruction (in several steps, with ODP answering in between), iteration, binding and handle release by any number of threads interleave; a wrong count shows only after the object was reused", "anchors": ["src/ofp_ipsec_sad.c: sa_init", "ofp_ipsec_sa_create", "sa_find_by_id", "sa_in_lookup"]}
{"id": "C112", "title": "Destruction happens once, in order, and to the end", "statement": "Of any number of concurrent destructions of an SA one is accepted; its status only goes from active over disabled to destroyed; ODP is asked to disable and then to destroy each SA at most once each; the SA then leaves the database (in asynchronous mode after the completion event), and a destruction that failed can be tried again.", "quantifier": "every history of calls by any number of threads, every answer of ODP, every database size", "why_tests_cant": "creation, destruction (in several steps, with ODP answering in between), iteration, binding and handle release by any number of threads interleave; a wrong count shows only after the object was reused", "anchors": ["src/ofp_ipsec_sad.c: ofp_ipsec_sa_disable", "ofp_ipsec_sa_disable_finish", "ofp_ipsec_sa_destroy_finish", "src/ofp_ipsec.c: ofp_ipsec_sa_destroy", "handle_sa_disable_completion"]}
{"id": "C113", "title": "Flushing removes the SAs of one VRF", "statement": "ofp_ipsec_sa_flush destroys every SA of the VRF and no other, and keeps no reference.", "quantifier": "every history of calls by any number of threads, every answer of ODP, every database size", "why_tests_cant": "creation, destruction (in several steps, with ODP answering in between), iteration, binding and handle release by any number of threads interleave; a wrong count shows only after the object was reused", "anchors": ["src/ofp_ipsec.c: ipsec_sa_flush", "ofp_ipsec_sa_flush", "ofp_ipsec_sa_destroy"]}
{"id": "C114", "title": "Binding an SA keeps it alive", "statement": "From the moment a policy refers to an SA, the SA object is not reused until the policy lets go of it, whatever other threads do meanwhile.", "quantifier": "every interleaving of the critical sections of binding with other calls", "why_tests_cant": "creation, destruction (in several steps, with ODP answering in between), iteration, binding and handle release by any number of threads interleave; a wrong count shows only after the object was reused", "anchors": ["src/ofp_ipsec.c: ofp_ipsec_sp_bind", "ofp_ipsec_sp_destroy"]}
{"id": "C115", "title": "A datagram arrives as it was sent", "statement": "A successful ofp_sendto on an IPv4 datagram socket sends one datagram with exactly the given bytes; whatever routers did to TTL and header checksum, and whatever padding the link added, the receiving stack accepts its checksum, and ofp_recvfrom on the socket it is for returns those bytes (as many as were asked for) with address and port of the sender.", "quantifier": "every payload, address, port, table, padding, alignment and checksum mode", "why_tests_cant": "sizes, contents, headers, socket tables and orders of arrival are unbounded, and what lies behind a packet in memory differs from run to run", "anchors": ["src/ofp_udp_usrreq.c: udp_output", "ofp_udp_input", "udp_append", "src/ofp_uipc_socket.c: ofp_sosend_dgram", "ofp_soreceive_dgram", "src/ofp_pkt_processing.c: ofp_udp_checksum_insert", "src/ofp_in_cksum.c: ofp_in4_cksum"]}
{"id": "C116", "title": "Sockets read only datagrams meant for them, in order, once", "statement": "In any history of sockets, calls and packets, what a datagram socket reads is a subsequence of the datagrams that came in: in order, none twice, each with a good (or absent) checksum, each addressed to this socket when it arrived (best match of the table, or wanted broadcast/multicast), each with its own data and sender.", "quantifier": "every packet, every socket table reachable by calls, every history of calls and packets, every content of memory behind the packets", "why_tests_cant": "sizes, contents, headers, socket tables and orders of arrival are unbounded, and what lies behind a packet in memory differs from run to run", "anchors": ["src/ofp_udp_usrreq.c: ofp_udp_input", "udp_append", "src/ofp_in_pcb.c: ofp_in_pcblookup", "src/ofp_uipc_socket.c: ofp_soreceive_dgram", "src/ofp_uipc_sockbuf.c: ofp_sbappendaddr_locked"]}
{"id": "C117", "title": "Every member gets a broadcast or multicast datagram", "statement": "Every socket bound to the port of a broadcast or (having joined) multicast datagram, not bound or connected to another address, gets it once.", "quantifier": "every packet, every socket table reachable by calls, every history of calls and packets, every content of memory behind the packets", "why_tests_cant": "sizes, contents, headers, socket tables and orders of arrival are unbounded, and what lies behind a packet in memory differs from run to run", "anchors": ["src/ofp_udp_usrreq.c: ofp_udp_input", "udp_append", "ofp_in_broadcast"]}
{"id": "C118", "title": "Datagram sockets neither lose nor double-free packet buffers", "statement": "Every packet the input path takes over and every copy it makes is at any time in exactly one place: a receive buffer, an event callback, or back in its pool; reading and closing free what they remove. A send that fails has freed its packet; one that succeeds has handed it on.", "quantifier": "every packet, every socket table reachable by calls, every history of calls and packets, every content of memory behind the packets", "why_tests_cant": "sizes, contents, headers, socket tables and orders of arrival are unbounded, and what lies behind a packet in memory differs from run to run", "anchors": ["src/ofp_udp_usrreq.c: ofp_udp_input", "udp_append", "udp_output", "udp_close", "udp_detach", "src/ofp_uipc_socket.c: ofp_soreceive_dgram", "sofree_dispose", "src/ofp_uipc_sockbuf.c: sbflush_internal"]}
{"id": "C119", "title": "A read returns only bytes of the datagram", "statement": "ofp_recvfrom on a datagram socket returns bytes of the packet that arrived, never memory behind it, whatever the headers of the packet say.", "quantifier": "every packet content and every memory content behind it", "why_tests_cant": "sizes, contents, headers, socket tables and orders of arrival are unbounded, and what lies behind a packet in memory differs from run to run", "anchors": ["src/ofp_udp_usrreq.c: ofp_udp_input", "src/ofp_uipc_socket.c: ofp_soreceive_dgram"]}
{"id": "C120", "title": "Sockets of one VRF do not see packets of another", "statement": "A socket opened in a VRF (ofp_socket_vrf) gets only packets that arrived in that VRF.", "quantifier": "every table, packet and pair of VRFs", "why_tests_cant": "sizes, contents, headers, socket tables and orders of arrival are unbounded, and what lies behind a packet in memory differs from run to run", "anchors": ["src/ofp_udp_usrreq.c: ofp_udp_input", "src/ofp_in_pcb.c: ofp_in_pcblookup", "in_pcblookup_hash_locked"]}
{"id": "C121", "title": "The ordered tree is a bag of keys", "statement": "After any sequence of avl_insert and avl_delete calls the tree holds exactly the keys inserted and not deleted, avl_get_by_key finds a key exactly when an equal one is stored, walking the tree visits every key once in order, no call follows a null pointer, and nodes are neither lost nor invented.", "quantifier": "every comparison function that is a total preorder, every sequence of insertions and deletions, every pool size", "why_tests_cant": "the shapes a balanced tree can take and the orders of calls are unbounded; a missed rotation case shows only in particular shapes", "anchors": ["src/ofp_avl.c: avl_insert", "avl_delete", "avl_get_by_key", "avl_iterate_inorder", "avl_get_first", "avl_get_next", "avl_get_prev", "avl_mem_node_alloc", "avl_mem_node_free"]}
{"id": "C122", "title": "Ordered-tree lookups take logarithmic time", "statement": "After any history a lookup in a tree of n keys makes at most 2*log2(n+1)+1 comparisons.", "quantifier": "every comparison function that is a total preorder, every sequence of insertions and deletions, every pool size", "why_tests_cant": "the shapes a balanced tree can take and the orders of calls are unbounded; a missed rotation case shows only in particular shapes", "anchors": ["src/ofp_avl.c: avl_insert", "avl_delete", "avl_get_by_key"]}
{"id": "C123", "title": "Access by position agrees with the order", "statement": "avl_get_by_index(i) returns the i-th key, and iterating over a range of positions visits exactly those keys, after any history of calls.", "quantifier": "every comparison function that is a total preorder, every sequence of insertions and deletions, every pool size", "why_tests_cant": "the shapes a balanced tree can take and the orders of calls are unbounded; a missed rotation case shows only in particular shapes", "anchors": ["src/ofp_avl.c: avl_get_by_index", "avl_iterate_index_range", "avl_get_span_by_key", "avl_insert", "avl_delete"]}
{"id": "C124", "title": "The rule table is a map and lists each VRF exactly", "statement": "After any sequence of route additions and removals the rule table returns for each (VRF, prefix) the next hop last added and not removed; listing a VRF (route print) shows each of its prefixes once, in order, and none of another VRF.", "quantifier": "every sequence of additions and removals, every VRF", "why_tests_cant": "the sequences of routes are unbounded; the listing depends on subtree counters maintained by every rotation", "anchors": ["src/ofp_rt_mtrie_lookup.c: ofp_rt_rule_add", "ofp_rt_rule_remove", "ofp_rt_rule_search", "ofp_rt_rule_vrf_iter", "ofp_rt_rule_print", "src/ofp_avl.c: avl_get_item_by_key_least", "avl_get_item_by_key_most", "avl_get_span_by_key"]}
{"id": "C125", "title": "MD5 digests are those of RFC 1321", "statement": "ofp_MD5Init, any number of ofp_MD5Update calls and ofp_MD5Final give the digest RFC 1321 assigns to the concatenation of the inputs, however the bytes are divided among the calls and whatever the context memory held before; no buffer is overrun and the context is wiped.", "quantifier": "every content of the context memory, every sequence of inputs of every length below 2^32-63 bytes", "why_tests_cant": "messages, their lengths and their divisions are unbounded; test vectors sample them", "anchors": ["src/ofp_md5c.c: ofp_MD5Init", "ofp_MD5Update", "MD5Pad", "ofp_MD5Final", "MD5Transform"]}
{"id": "C126", "title": "MD5 of very long inputs", "statement": "ofp_MD5Update reads only the bytes it was given, for every length its parameter can express.", "quantifier": "every context state and every length up to 2^32-1", "why_tests_cant": "inputs of 4 GB are not tested", "anchors": ["src/ofp_md5c.c: ofp_MD5Update"]}
{"id": "C127", "title": "Initial sequence numbers advance", "statement": "When a connection is opened again between the same addresses and ports, its initial sequence number is ahead of the earlier one by at least 4096 per connection opened in between and keeps up with a clock of 1 MB per second (so that old segments are told from new ones), as long as the distance stays below 2^31.", "quantifier": "every history of connections opened, every reading of the clock during each of them", "why_tests_cant": "the numbers depend on the whole history of calls and on wrap-around of 32-bit counters", "anchors": ["src/ofp_tcp_subr.c: ofp_tcp_new_isn", "src/ofp_md5c.c: ofp_MD5Update"]}
{"id": "C128", "title": "Initial sequence numbers cannot be guessed", "statement": "The initial sequence number of a connection opened here depends on a secret that an outsider who knows addresses, ports and time of start cannot compute.", "quantifier": "every history of connections opened", "why_tests_cant": "that no input makes the number predictable is a statement about all inputs and all of the state", "anchors": ["src/ofp_tcp_subr.c: ofp_tcp_new_isn"]}
{"id": "C129", "title": "Packets are sent in order, once, per port", "statement": "Every packet handed over for a port is given to the port's driver, or freed because the driver refused it or the thread ends, exactly once and in the order handed over; none waits after ofp_send_pending_pkt, nor at all if the burst size is 1; the table of waiting packets is never overrun.", "quantifier": "every burst size from 1 on, every sequence of sends on any ports, flushes and ends of use, every answer of the drivers", "why_tests_cant": "the interleaving of ports, burst sizes and partial sends is unbounded", "anchors": ["src/ofp_pkt_send_burst.c: send_pkt_out", "send_table", "ofp_send_pending_pkt", "ofp_send_pkt_out_init_local", "ofp_send_pkt_out_term_local"]}
{"id": "C130", "title": "Retransmission timeouts stay in range", "statement": "Whatever the peer echoes and whatever is lost, the retransmission timeout of a connection is at least the configured minimum and at most 64 s, exceeds a round trip just measured by two ticks (up to 64 s), and window probes are between 5 s and 60 s apart; an echoed timestamp never counts as a negative or more than 72-minute round trip.", "quantifier": "every history of acknowledgements (any echoed timestamps), timeouts, window probes and ICMP errors on a connection; every sensible configuration", "why_tests_cant": "measurements, losses and timeouts interleave without bound, and time spans of minutes to months are not tested", "anchors": ["src/ofp_tcp_input.c: tcp_xmit_timer", "src/ofp_tcp_timer.c: ofp_tcp_timer_rexmt", "src/ofp_tcp_output.c: ofp_tcp_setpersist"]}
{"id": "C131", "title": "Round-trip estimation follows RFC 6298", "statement": "The first round trip R measured gives SRTT = R, RTTVAR = R/2; later ones move SRTT by 1/8 and RTTVAR by 1/4 of the difference; the timeout is SRTT + 4 RTTVAR plus a constant; round trips are measured exactly; retransmitted data is not measured (unless timestamps tell the transmissions apart); SRTT stays between the extremes measured and the timeout below five times the longest round trip.", "quantifier": "every history of a connection with round trips up to 87 minutes", "why_tests_cant": "measurements, losses and timeouts interleave without bound, and time spans of minutes to months are not tested", "anchors": ["src/ofp_tcp_input.c: tcp_xmit_timer", "src/ofp_tcp_input.c: ofp_tcp_do_segment", "include/ofpi_tcp_var.h: TCP_REXMTVAL"]}
{"id": "C132", "title": "Exponential back-off", "statement": "While nothing is heard from the peer, the wait before each further retransmission is not shorter than the one before, and doubles up to a limit.", "quantifier": "every state of a connection, every number of timeouts", "why_tests_cant": "measurements, losses and timeouts interleave without bound, and time spans of minutes to months are not tested", "anchors": ["src/ofp_tcp_timer.c: ofp_tcp_timer_rexmt", "ofp_tcp_backoff"]}
{"id": "C133", "title": "When a silent peer is given up", "statement": "A connection on which nothing is heard is given up with ETIMEDOUT (or the error last reported by the network) at the thirteenth timeout in a row, not before, 79 s to 832 s after the segment was sent.", "quantifier": "every state of a connection with round trips up to 87 minutes", "why_tests_cant": "measurements, losses and timeouts interleave without bound, and time spans of minutes to months are not tested", "anchors": ["src/ofp_tcp_timer.c: ofp_tcp_timer_rexmt"]}
{"id": "C134", "title": "A connection that makes progress is not given up", "statement": "A retransmission timeout ends a connection only if no new data has been acknowledged during the last twelve timeouts.", "quantifier": "every history of a connection", "why_tests_cant": "measurements, losses and timeouts interleave without bound, and time spans of minutes to months are not tested", "anchors": ["src/ofp_tcp_timer.c: ofp_tcp_timer_rexmt", "src/ofp_tcp_input.c: tcp_xmit_timer"]}
{"id": "C135", "title": "Keep-alive ends only silent connections, and all of them", "statement": "The keep-alive timer ends an established connection if and only if nothing has been received for the idle time plus the number of probes times the probe interval; it is always set to be served in time for that.", "quantifier": "every history of segments, passing time and timer services; every setting of the keep-alive options", "why_tests_cant": "measurements, losses and timeouts interleave without bound, and time spans of minutes to months are not tested", "anchors": ["src/ofp_tcp_timer.c: ofp_tcp_timer_keep", "ofp_tcp_timer_activate", "src/ofp_tcp_input.c: ofp_tcp_do_segment"]}
{"id": "C136", "title": "Keep-alive options are honoured", "statement": "TCP_KEEPIDLE is the silence before the first probe, TCP_KEEPCNT the number of unanswered probes before the connection is given up, TCP_KEEPINIT the time allowed for connecting.", "quantifier": "every accepted value of the options", "why_tests_cant": "the values range over 32 bits and take effect minutes to months later", "anchors": ["src/ofp_tcp_timer.c: ofp_tcp_timer_activate", "ofp_tcp_timer_keep", "src/ofp_tcp_usrreq.c: ofp_tcp_ctloutput"]}
{"id": "C137", "title": "A closed window does not end a connection", "statement": "A connection whose peer keeps its window closed but answers window probes is kept for ever, also if now and then a probe or an answer is lost.", "quantifier": "every state of a connection, every moment", "why_tests_cant": "measurements, losses and timeouts interleave without bound, and time spans of minutes to months are not tested", "anchors": ["src/ofp_tcp_timer.c: ofp_tcp_timer_persist", "src/ofp_tcp_output.c: ofp_tcp_setpersist"]}
{"id": "C138", "title": "Losses slow the sender down", "statement": "After a retransmission timeout or a third duplicate acknowledgement the sender has less data outstanding (one segment, or half), and a new connection starts slowly.", "quantifier": "every history of acknowledgements and losses", "why_tests_cant": "measurements, losses and timeouts interleave without bound, and time spans of minutes to months are not tested", "anchors": ["src/ofp_tcp_input.c: ofp_cc_cong_signal", "cc_ack_received", "cc_conn_init", "src/ofp_tcp_timer.c: ofp_tcp_timer_rexmt", "src/ofp_tcp_subr.c: ofp_tcp_newtcpcb"]}
{"id": "C139", "title": "Stopped timers do not run", "statement": "Once a timer of a connection is stopped (or the connection closed) its action is not carried out until it is armed again, even if its timeout event is already on its way; each arming leads to at most one action.", "quantifier": "every interleaving of arming, stopping, expiry and event handling of any number of timers", "why_tests_cant": "the order in which cores serve timer events, cancel timers and reuse handles cannot be controlled by a test", "anchors": ["include/ofpi_callout.h: callout_stop, callout_reset_on", "src/ofp_timer.c: ofp_timer_handle", "src/ofp_tcp_timer.c: ofp_tcp_timer_rexmt"]}
{"id": "C140", "title": "Timers do not run early", "statement": "The action of a timer is not carried out before the time it was last armed for, and never because of an earlier arming or of another connection.", "quantifier": "every interleaving of arming, stopping, expiry and event handling of any number of timers", "why_tests_cant": "the order in which cores serve timer events, cancel timers and reuse handles cannot be controlled by a test", "anchors": ["include/ofpi_callout.h: callout_reset_on, callout_pending", "src/ofp_timer.c: ofp_timer_cancel", "src/ofp_tcp_timer.c: ofp_tcp_timer_delack"]}
{"id": "C141", "title": "Armed timers are not lost", "statement": "As long as a timer is armed and has neither run nor been stopped, an underlying timer for that moment exists or its event is waiting to be served; what other connections do cannot cancel it.", "quantifier": "every interleaving of arming, stopping, expiry and event handling of any number of timers", "why_tests_cant": "the order in which cores serve timer events, cancel timers and reuse handles cannot be controlled by a test", "anchors": ["include/ofpi_callout.h: callout_reset_on, callout_stop", "src/ofp_timer.c: ofp_timer_start_cpu_id, ofp_timer_cancel"]}
{"id": "C142", "title": "TIME_WAIT lasts two MSL", "statement": "A connection closed in order is remembered for two MSL after the last FIN of the peer; it is forgotten earlier only for a new connection request with a larger sequence number, or, being the oldest, to make room in a full table; it is forgotten at the first periodic check after that time; the table is bounded.", "quantifier": "every history of closings, segments, periodic checks and passing time", "why_tests_cant": "TIME_WAIT lasts minutes, and depends on the order of closings, late segments and periodic checks", "anchors": ["src/ofp_tcp_timewait.c: ofp_tcp_twstart, ofp_tcp_tw_2msl_scan, ofp_tcp_twcheck"]}
{"id": "C143", "title": "Late segments in TIME_WAIT", "statement": "In TIME_WAIT a reset is ignored, a repeated FIN is acknowledged and restarts the waiting time, and every answer acknowledges exactly what had been received.", "quantifier": "every connection in TIME_WAIT, every segment", "why_tests_cant": "TIME_WAIT lasts minutes, and depends on the order of closings, late segments and periodic checks", "anchors": ["src/ofp_tcp_timewait.c: ofp_tcp_twcheck, ofp_tcp_twrespond"]}
{"id": "C144", "title": "No acknowledgement of acknowledgements", "statement": "In TIME_WAIT a pure acknowledgement that brings nothing new is not answered, so two hosts cannot keep acknowledging each other.", "quantifier": "every connection in TIME_WAIT, every number of steps", "why_tests_cant": "needs both hosts in TIME_WAIT and an unbounded exchange", "anchors": ["src/ofp_tcp_timewait.c: ofp_tcp_twcheck"]}
{"id": "C145", "title": "Control block and socket are released once", "statement": "Whatever the order of the application closing its descriptor and the end of TIME_WAIT, the control block and the socket are freed exactly once, and not before both.", "quantifier": "every order and number of close and expiry", "why_tests_cant": "TIME_WAIT lasts minutes, and depends on the order of closings, late segments and periodic checks", "anchors": ["src/ofp_tcp_timewait.c: ofp_tcp_twclose, ofp_tcp_twstart", "src/ofp_tcp_usrreq.c: tcp_detach, tcp_usr_close"]}
{"id": "C146", "title": "FIN_WAIT_2 ends", "statement": "A closed connection whose peer acknowledges the FIN but never sends its own is released once the peer has been silent for the idle limit plus one interval, and (without fast recycling) not while the peer is still heard.", "quantifier": "every history of segments, passing time and timer services", "why_tests_cant": "TIME_WAIT lasts minutes, and depends on the order of closings, late segments and periodic checks", "anchors": ["src/ofp_tcp_timer.c: ofp_tcp_timer_2msl", "src/ofp_tcp_usrreq.c: tcp_usrclosed"]}
{"id": "C147", "title": "Multicast delivery follows the source filter", "statement": "A socket is given a multicast datagram only if it is a member of the group on the interface it came from and its filter wants the source: in EXCLUDE mode every source not listed, in INCLUDE mode only the listed.", "quantifier": "every history of membership calls of any number of sockets, with any failures of memory and of IGMP; every group, interface and source", "why_tests_cant": "any number of sockets, groups and sources, and every history of joins, leaves and filter changes; errors of memory and of IGMP at any point", "anchors": ["src/ofp_in_mcast.c: ofp_imo_multi_filter, imo_match_group", "src/ofp_udp_usrreq.c: ofp_udp_input"]}
{"id": "C148", "title": "Membership calls are exact", "statement": "Joining, leaving, blocking, unblocking and setting filters return the error RFC 3678 prescribes for the memberships there are and have exactly the described effect on them; a call that returns an error changes no membership and no filter.", "quantifier": "every history of membership calls of any number of sockets, with any failures of memory and of IGMP", "why_tests_cant": "any number of sockets, groups and sources, and every history of joins, leaves and filter changes; errors of memory and of IGMP at any point", "anchors": ["src/ofp_in_mcast.c: inp_join_group, inp_leave_group, inp_block_unblock_source, inp_set_source_filters, imf_rollback, imf_commit, imf_reap"]}
{"id": "C149", "title": "Setting a source filter replaces it", "statement": "A successful call that sets the filter mode and source list of a membership makes them the mode and list, whatever they were before; any list within the limit is accepted.", "quantifier": "every history of membership calls of any number of sockets, with any failures of memory and of IGMP; every mode and list", "why_tests_cant": "any number of sockets, groups and sources, and every history of joins, leaves and filter changes; errors of memory and of IGMP at any point", "anchors": ["src/ofp_in_mcast.c: inp_set_source_filters, imf_get_source, imf_leave"]}
{"id": "C150", "title": "Source limits are kept safely", "statement": "The number of sources per membership (128) and per group (512) never exceeds its limit; a call that would exceed it, or for which there is no memory, fails with an error and does no harm.", "quantifier": "every history of membership calls of any number of sockets, with any failures of memory and of IGMP", "why_tests_cant": "any number of sockets, groups and sources, and every history of joins, leaves and filter changes; errors of memory and of IGMP at any point", "anchors": ["src/ofp_in_mcast.c: inm_merge, inm_get_source, imf_get_source, imf_graft"]}
{"id": "C151", "title": "Group records live as long as their members", "statement": "An interface is in a multicast group exactly as long as some open socket is a member of the group on it (or IGMP still has a report to send): it is not left early, and it is left when the last member leaves or is closed.", "quantifier": "every history of membership calls of any number of sockets, with any failures of memory and of IGMP; every order of leaving and closing", "why_tests_cant": "any number of sockets, groups and sources, and every history of joins, leaves and filter changes; errors of memory and of IGMP at any point", "anchors": ["src/ofp_in_mcast.c: in_getmulti, ofp_inm_release_locked, ofp_in_leavegroup_locked", "src/ofp_in_pcb.c: ofp_in_pcbfree, ofp_in_pcballoc"]}
{"id": "C152", "title": "Membership calls release their locks", "statement": "No membership call leaves a lock held: later calls on any socket, and IGMP, do not wait for ever.", "quantifier": "every history of membership calls of any number of sockets, with any failures of memory and of IGMP", "why_tests_cant": "any number of sockets, groups and sources, and every history of joins, leaves and filter changes; errors of memory and of IGMP at any point", "anchors": ["src/ofp_in_mcast.c: inp_join_group, inp_leave_group"]}
{"id": "C153", "title": "The interface asks for what its sockets want", "statement": "The reception state announced for a group on an interface is the merge of the filters of all its members: a source is announced as wanted exactly if at least one socket wants it.", "quantifier": "every history of membership calls of any number of sockets, with any failures of memory and of IGMP; every source", "why_tests_cant": "any number of sockets, groups and sources, and every history of joins, leaves and filter changes; errors of memory and of IGMP at any point", "anchors": ["src/ofp_in_mcast.c: inm_merge, ims_merge, inm_reap, ofp_inm_commit", "include/ofpi_in_var.h: ims_get_mode"]}
{"id": "C154", "title": "IPv6 transport checksums are those of RFC 8200", "statement": "The checksum computed for an IPv6 packet is the Internet checksum of pseudo-header and payload: a received packet is accepted by ICMPv6 exactly if its checksum is correct, and every ICMPv6 message sent (neighbour discovery, echo replies, errors) carries a correct one.", "quantifier": "every packet, any payload length up to 65535, any split of the payload into aligned or unaligned words", "why_tests_cant": "all payloads and addresses", "anchors": ["src/ofp_in6_cksum.c: ofp_in6_cksum, ofp_in6_cksum_pseudo", "src/ofp_icmp6.c: ofp_icmp6_input, ofp_icmp6_reflect", "src/ofp_nd6.c: ofp_nd6_ns_output, ofp_nd6_na_output"]}
{"id": "C155", "title": "Every IPv6 packet buffer ends exactly once", "statement": "Each buffer that is received or allocated on the IPv6 path is sent, handed to the slow path or the application, freed, or still waiting for a neighbour: exactly one of these, never twice and never none.", "quantifier": "every history of received frames, sent packets and route changes, with any failures of allocation", "why_tests_cant": "any packet bytes, any routes and neighbours, any history of frames, sends and route changes, with allocation failing at any point", "anchors": ["src/ofp_pkt_processing.c: ofp_ipv6_processing, ofp_ip6_output, ipv6_transport_classifier, ofp_packet_input", "src/ofp_icmp6.c: ofp_icmp6_input, ofp_icmp6_error, ofp_icmp6_reflect"]}
{"id": "C156", "title": "Packets waiting for a neighbour are kept, sent in order, and freed with the route", "statement": "A packet sent to a neighbour whose Ethernet address is not known waits at the route to it; when the address becomes known all waiting packets are sent to it in the order they came; deleting the route frees exactly those waiting at it; the records for waiting packets are never lost.", "quantifier": "every history of received frames, sent packets and route changes, with any failures of allocation", "why_tests_cant": "any packet bytes, any routes and neighbours, any history of frames, sends and route changes, with allocation failing at any point", "anchors": ["src/ofp_nd6.c: ofp_nd6_ns_output, ofp_nd6_na_input", "src/ofp_route.c: ofp_route_save_ipv6_pkt, ofp_add_mac6, del_route6"]}
{"id": "C157", "title": "Packets go to the neighbour they are for", "statement": "After a neighbour has advertised its Ethernet address, packets routed to it - directly, or because it is the gateway of their route - are sent to that Ethernet address; and to no other neighbour.", "quantifier": "every history of received frames, sent packets and route changes, with any failures of allocation; every neighbour and destination", "why_tests_cant": "any packet bytes, any routes and neighbours, any history of frames, sends and route changes, with allocation failing at any point", "anchors": ["src/ofp_pkt_processing.c: ofp_ip6_output", "src/ofp_nd6.c: ofp_nd6_ns_output, ofp_nd6_na_input", "src/ofp_route.c: ofp_add_mac6"]}
{"id": "C158", "title": "Received packets do not change routes", "statement": "No received packet changes, removes or overrides a configured route; neighbour discovery messages are believed only from the link (hop limit 255) of the neighbour they are about.", "quantifier": "every received frame, every table", "why_tests_cant": "any packet bytes, any routes and neighbours, any history of frames, sends and route changes, with allocation failing at any point", "anchors": ["src/ofp_icmp6.c: ofp_icmp6_input", "src/ofp_nd6.c: ofp_nd6_ns_input, ofp_nd6_na_input", "src/ofp_route.c: ofp_add_mac6"]}
{"id": "C159", "title": "Neighbour solicitations are answered, for own addresses only", "statement": "A valid solicitation for an address of the receiving interface, including the probes of duplicate address detection, is answered by one advertisement with the Ethernet address of the interface; a solicitation for another address is not answered.", "quantifier": "every solicitation, every interface and state", "why_tests_cant": "any packet bytes, any routes and neighbours, any history of frames, sends and route changes, with allocation failing at any point", "anchors": ["src/ofp_icmp6.c: ofp_icmp6_input", "src/ofp_nd6.c: ofp_nd6_ns_input, ofp_nd6_na_output"]}
{"id": "C160", "title": "IPv6 local delivery is exact", "statement": "A packet is delivered locally exactly if its destination is an address of the host, a group its interface belongs to, or has a local route; all others are forwarded or dropped.", "quantifier": "every packet, every interface and routing table", "why_tests_cant": "any packet bytes, any routes and neighbours, any history of frames, sends and route changes, with allocation failing at any point", "anchors": ["src/ofp_pkt_processing.c: ofp_ipv6_processing"]}
{"id": "C161", "title": "IPv6 forwarding follows the longest matching route", "statement": "A packet for another host is sent with its contents unchanged but for the hop limit, which is decremented, on the interface and to the neighbour of the longest matching route; without route, or with hop limit 1 or less, it is not forwarded.", "quantifier": "every packet, every routing table", "why_tests_cant": "all packets and tables", "anchors": ["src/ofp_pkt_processing.c: ofp_ipv6_processing, ofp_ip6_output"]}
{"id": "C162", "title": "IPv6 input stays within the packet", "statement": "Processing a received frame of any content reads no byte beyond the end of the packet, follows no chain of extension headers for ever, and indexes no table beyond its end.", "quantifier": "every received frame, any length and content, every state", "why_tests_cant": "all packet contents", "anchors": ["src/ofp_pkt_processing.c: ofp_ipv6_processing", "src/ofp_icmp6.c: ofp_icmp6_input, icmp6_notify_error, ofp_icmp6_error", "src/ofp_nd6.c: ofp_nd6_ns_input, ofp_nd6_na_input", "src/ofp_ip6_init.c: ofp_ip6_protox"]}
{"id": "C163", "title": "IPv6 echo requests are answered", "statement": "An echo request for an address of this host is answered on the route to its sender by an echo reply from that address with the same identifier, sequence number and data and a correct checksum.", "quantifier": "every echo request, every routing table", "why_tests_cant": "any packet bytes, any routes and neighbours, any history of frames, sends and route changes, with allocation failing at any point", "anchors": ["src/ofp_icmp6.c: ofp_icmp6_input, ofp_icmp6_reflect"]}
{"id": "C164", "title": "ICMPv6 errors are sent only where allowed, and quote the packet", "statement": "No ICMPv6 error is sent about an ICMPv6 error or a packet from or to a multicast or unspecified address; every error quotes as much of the packet as fits into 1280 bytes, and its pointer names the offending field.", "quantifier": "every packet that causes an error", "why_tests_cant": "any packet bytes, any routes and neighbours, any history of frames, sends and route changes, with allocation failing at any point", "anchors": ["src/ofp_icmp6.c: ofp_icmp6_error, ofp_icmp6_reflect", "src/ofp_pkt_processing.c: ipv6_transport_classifier"]}
{"id": "C165", "title": "Unresponsive neighbours do not starve others", "statement": "However many packets were sent to neighbours that do not answer, packets to other neighbours are still queued and resolved.", "quantifier": "every history of received frames, sent packets and route changes, with any failures of allocation; any number of unresponsive neighbours", "why_tests_cant": "any packet bytes, any routes and neighbours, any history of frames, sends and route changes, with allocation failing at any point", "anchors": ["src/ofp_nd6.c: ofp_nd6_ns_output", "src/ofp_route.c: NUM_PKTS, ofp_route_save_ipv6_pkt"]}
{"id": "C166", "title": "Configured addresses and local routes agree", "statement": "At any time an interface has an IPv4 address exactly if its VRF has a local host route for it through that interface; every address has its subnet route; there are no other local routes, and no address belongs to two interfaces of a VRF.", "quantifier": "every history of configuration calls (interface up, add address, delete address, loopback up, down, static routes) on any ports, VLANs and VRFs", "why_tests_cant": "any history of configuration calls on any interfaces with any addresses; the calls interact through the shared routing table", "anchors": ["src/ofp_portconf.c: ofp_config_interface_up_v4, ofp_config_interface_add_ip_v4, ofp_config_interface_del_ip_v4, ofp_config_interface_up_local, ofp_config_interface_down", "src/ofp_route.c: add_route, del_route"]}
{"id": "C167", "title": "Bringing an interface up configures its address", "statement": "When ofp_config_interface_up_v4 or ofp_config_interface_up_local reports success, the interface is in the given VRF with the given address as its primary one, its host route is local, its subnet route leads to it, and the previous primary address (all of them if the VRF changed) is gone.", "quantifier": "every call, every interface, address, prefix length and VRF, every previous configuration", "why_tests_cant": "any history of configuration calls on any interfaces with any addresses; the calls interact through the shared routing table", "anchors": ["src/ofp_portconf.c: ofp_config_interface_up_v4, ofp_config_interface_up_local, ofp_set_first_ifnet_addr"]}
{"id": "C168", "title": "Adding and deleting addresses is exact", "statement": "Adding an address adds exactly that address with its two routes; deleting one of the addresses of an interface removes exactly that address with its two routes; both succeed whenever address and room are there.", "quantifier": "every call, every interface with any number of addresses", "why_tests_cant": "any history of configuration calls on any interfaces with any addresses; the calls interact through the shared routing table", "anchors": ["src/ofp_portconf.c: ofp_config_interface_add_ip_v4, ofp_config_interface_del_ip_v4, ofp_ifnet_ip_add, ofp_ifnet_ip_remove", "src/ofp_route.c: add_route, del_route"]}
{"id": "C169", "title": "A refused configuration call changes nothing", "statement": "When a configuration call reports an error, the addresses of all interfaces and all routes are as before; and it reports an error when port, VRF, interface or prefix length are wrong, the address is already there or not there.", "quantifier": "every call with any arguments, every state", "why_tests_cant": "any history of configuration calls on any interfaces with any addresses; the calls interact through the shared routing table", "anchors": ["src/ofp_portconf.c: ofp_config_interface_up_v4, ofp_config_interface_add_ip_v4, ofp_config_interface_del_ip_v4, ofp_config_interface_down"]}
{"id": "C170", "title": "Bringing an interface down removes all its addresses and nothing else", "statement": "After ofp_config_interface_down none of the addresses of the interface, its host and subnet routes and its entry in the list of bind is left; a VLAN or loopback interface is deleted and its record can be used again; all other interfaces and routes are untouched.", "quantifier": "every interface with any number of addresses, every configuration of the others", "why_tests_cant": "any history of configuration calls on any interfaces with any addresses; the calls interact through the shared routing table", "anchors": ["src/ofp_portconf.c: ofp_config_interface_down, ofp_free_ifnet_ip_list, ofp_delete_ifnet"]}
{"id": "C171", "title": "Configuring an interface leaves other routes alone", "statement": "No call changes a route other than those of the addresses it adds or removes; static routes, in particular default routes, stay.", "quantifier": "every history of configuration calls (interface up, add address, delete address, loopback up, down, static routes) on any ports, VLANs and VRFs", "why_tests_cant": "any history of configuration calls on any interfaces with any addresses; the calls interact through the shared routing table", "anchors": ["src/ofp_portconf.c: ofp_config_interface_up_v4, ofp_config_interface_down", "src/ofp_route.c: add_route, del_route"]}
{"id": "C172", "title": "Looking up an interface by address is exact", "statement": "Looking up an address in a VRF (ofp_get_ifnet_by_ip, ofp_get_ifnet_match) returns the interface of that VRF that has the address, and nothing if there is none.", "quantifier": "every consistent configuration, every address and VRF, with or without VLAN", "why_tests_cant": "any history of configuration calls on any interfaces with any addresses; the calls interact through the shared routing table", "anchors": ["src/ofp_portconf.c: ofp_get_ifnet_by_ip, ofp_get_ifnet_match"]}
{"id": "C173", "title": "Sockets can be bound to every configured address", "statement": "bind accepts an address of the VRF of the socket exactly if an interface of that VRF has it; the list it consults contains only existing interfaces.", "quantifier": "every history of configuration calls, every address and VRF", "why_tests_cant": "any history of configuration calls on any interfaces with any addresses; the calls interact through the shared routing table", "anchors": ["src/ofp_portconf.c: ofp_ifaddr_elem_get, ofp_ifaddr_elem_add, ofp_ifaddr_elem_del", "src/ofp_in_pcb.c: ofp_in_pcbbind_setup"]}
{"id": "C174", "title": "Interface configuration never crashes", "statement": "No configuration call with valid port and VRF dereferences a null pointer or a freed interface, also when the records for VLAN interfaces are used up.", "quantifier": "every history of configuration calls (interface up, add address, delete address, loopback up, down, static routes) on any ports, VLANs and VRFs; any number of VLAN interfaces", "why_tests_cant": "any history of configuration calls on any interfaces with any addresses; the calls interact through the shared routing table", "anchors": ["src/ofp_portconf.c: ofp_get_create_ifnet, ofp_vlan_alloc, ofp_delete_ifnet"]}
{"id": "C175", "title": "A learned MAC address is known", "statement": "After a VXLAN frame from a MAC address has been received, frames to that MAC address go to the tunnel end point it came from.", "quantifier": "every history of learned MAC addresses and timer ticks, every MAC address and end point", "why_tests_cant": "any history of received frames, from any MAC addresses, and timer ticks: billions of ticks, and hashes that collide", "anchors": ["src/ofp_vxlan.c: ofp_vxlan_set_mac_dst, ofp_vxlan_get_mac_dst"]}
{"id": "C176", "title": "Only learned end points are used", "statement": "If a frame to a MAC address is sent to a single tunnel end point, a frame from exactly that MAC address has come from exactly that end point before.", "quantifier": "every history of learned MAC addresses and timer ticks, every MAC address", "why_tests_cant": "any history of received frames, from any MAC addresses, and timer ticks: billions of ticks, and hashes that collide", "anchors": ["src/ofp_vxlan.c: ofp_vxlan_get_mac_dst, ofp_vxlan_set_mac_dst"]}
{"id": "C177", "title": "Learning one MAC address does not affect another", "statement": "Receiving a frame from one MAC address does not change where frames to another MAC address are sent.", "quantifier": "every history of learned MAC addresses and timer ticks, every pair of MAC addresses", "why_tests_cant": "any history of received frames, from any MAC addresses, and timer ticks: billions of ticks, and hashes that collide", "anchors": ["src/ofp_vxlan.c: ofp_vxlan_set_mac_dst"]}
{"id": "C178", "title": "A learned MAC address lives for one hour", "statement": "A learned MAC address is known for one hour after the last frame from it, and is unknown after one hour and one round of the timer over the table.", "quantifier": "every history of learned MAC addresses and timer ticks", "why_tests_cant": "any history of received frames, from any MAC addresses, and timer ticks: billions of ticks, and hashes that collide", "anchors": ["src/ofp_vxlan.c: ofp_vxlan_tmo, VXLAN_MAC_IP_AGE_TICKS"]}
{"id": "C179", "title": "The MAC table is right under every schedule", "statement": "When several cores receive, send and run the timer at the same time, a frame to a MAC address is sent only to an end point that was learned for that address, and an address that has been learned is known.", "quantifier": "every number of cores, every interleaving of the atomic instructions", "why_tests_cant": "interleavings inside a lock-free table", "anchors": ["src/ofp_vxlan.c: ofp_vxlan_set_mac_dst, ofp_vxlan_get_mac_dst, ofp_vxlan_tmo"]}
{"id": "C180", "title": "VXLAN round trip", "statement": "A frame sent on a VXLAN interface is received by the peer as exactly the same frame, on the interface of the same virtual network, and the peer learns the sender.", "quantifier": "every frame, every MAC table on both sides, every virtual network number below 65536, every IPv4 path between", "why_tests_cant": "all frames, tables and network numbers", "anchors": ["src/ofp_vxlan.c: ofp_vxlan_prepend_hdr, ofp_vxlan_input"]}
{"id": "C181", "title": "Virtual networks are isolated", "statement": "A received VXLAN packet is taken only if its VNI-valid flag is set, it contains an Ethernet frame and an interface for its virtual network has been configured, and then appears on that interface only.", "quantifier": "every received packet, every 24-bit network number, every set of VXLAN interfaces", "why_tests_cant": "all packets and network numbers", "anchors": ["src/ofp_vxlan.c: ofp_vxlan_input", "src/ofp_portconf.c: ofp_get_ifnet"]}
{"id": "C182", "title": "The outer headers of a VXLAN packet are right", "statement": "Encapsulation puts a correct outer IPv4, UDP and VXLAN header (lengths, ports, addresses, network number) in front of the frame and leaves the frame unchanged.", "quantifier": "every frame, head room, MAC table and interface", "why_tests_cant": "all frame sizes and contents", "anchors": ["src/ofp_vxlan.c: ofp_vxlan_prepend_hdr"]}
{"id": "C183", "title": "The outer header of a GRE packet is right", "statement": "Sending an IPv4 or IPv6 packet into a GRE tunnel replaces the link header by an outer IPv4 header with the tunnel end points, the right length, and a GRE header with the right protocol, and leaves the packet unchanged.", "quantifier": "every packet, head room and link header; every tunnel", "why_tests_cant": "all packets and sizes", "anchors": ["src/ofp_gre.c: ofp_output_ipv4_to_gre, ofp_output_ipv6_to_gre"]}
{"id": "C184", "title": "GRE packets reach the tunnel they belong to", "statement": "A received GRE packet is taken by a tunnel exactly if there is one with these two end points in the VRF of the receiving interface, and then by that one.", "quantifier": "every received packet, every set of tunnels", "why_tests_cant": "all packets and configurations", "anchors": ["src/ofp_gre.c: ofp_gre_input", "src/ofp_portconf.c: ofp_get_ifnet_by_tunnel"]}
{"id": "C185", "title": "GRE decapsulation restores the packet", "statement": "A packet sent into a GRE tunnel comes out unchanged at the other end, for every combination of optional GRE fields, IP options and VLAN of the outer frame.", "quantifier": "every packet, every form of the GRE and outer IP header", "why_tests_cant": "all packets and header forms", "anchors": ["src/ofp_gre.c: ofp_gre_input"]}
{"id": "C186", "title": "VLAN tags match the interface", "statement": "A frame leaves with the tag of the interface if it is a VLAN interface, and without tag otherwise; addresses, type and payload are unchanged; frames above the MTU are dropped.", "quantifier": "every frame, tagged or not, every interface and MTU", "why_tests_cant": "all frames, interfaces and sizes", "anchors": ["src/ofp_pkt_processing.c: ofp_send_frame"]}
{"id": "C187", "title": "IPv6 packets reach the right socket", "statement": "An IPv6 packet is delivered to a socket connected to exactly its source, else to one bound to exactly its destination, else to one bound to any address, and to nobody only if no such IPv6 socket exists.", "quantifier": "every history of socket, bind, connect, listen, accept, sendto, disconnect and close on IPv4 and IPv6 sockets, every hash function, every addresses and ports of the packet", "why_tests_cant": "any history of calls on sockets of both families: sizes, orders and hash collisions are unbounded", "anchors": ["src/ofp_in6_pcb.c: ofp_in6_pcblookup_hash_locked"]}
{"id": "C188", "title": "The address families are kept apart", "statement": "An IPv6 packet is delivered only to a socket that takes IPv6 and an IPv4 packet only to one that takes IPv4: a socket with IPV6_V6ONLY never receives IPv4 packets, and an IPv6 connection receives only packets of its IPv6 peer.", "quantifier": "every history of socket, bind, connect, listen, accept, sendto, disconnect and close on IPv4 and IPv6 sockets, every hash function, every packet of either family", "why_tests_cant": "any history of calls on sockets of both families: sizes, orders and hash collisions are unbounded", "anchors": ["src/ofp_in6_pcb.c: ofp_in6_pcblookup_hash_locked", "src/ofp_in_pcb.c: ofp_in_pcblookup_hash_locked", "src/ofp_tcp_syncache.c: syncache_socket"]}
{"id": "C189", "title": "Explicit bind of an IPv6 socket", "statement": "bind to an IPv6 address and port succeeds exactly if the address can be bound and does not conflict with an address in use by another IPv6 socket or, for `::` on a socket that takes both families, by an IPv4 socket; it then gives the socket exactly that address and changes no other.", "quantifier": "every history of socket, bind, connect, listen, accept, sendto, disconnect and close on IPv4 and IPv6 sockets, every hash function, every address, port, option set and state", "why_tests_cant": "any history of calls on sockets of both families: sizes, orders and hash collisions are unbounded", "anchors": ["src/ofp_in6_pcb.c: ofp_in6_pcbbind", "src/ofp_udp6_usrreq.c: udp6_bind", "src/ofp_tcp_usrreq.c: tcp6_usr_bind"]}
{"id": "C190", "title": "The port the stack chooses for an IPv6 socket", "statement": "A port chosen by bind to port 0, by sendto or by listen lies in the configured range and is free; the call fails for lack of ports only if no port of the range is free.", "quantifier": "every history of socket, bind, connect, listen, accept, sendto, disconnect and close on IPv4 and IPv6 sockets, every hash function, every range, order and random number", "why_tests_cant": "any history of calls on sockets of both families: sizes, orders and hash collisions are unbounded", "anchors": ["src/ofp_in6_pcb.c: ofp_in6_pcbsetport", "src/ofp_in_pcb.c: ofp_in_pcb_lport"]}
{"id": "C191", "title": "connect of an IPv6 socket", "statement": "A successful connect connects the socket to exactly the peer given, keeps its address and port if it had any, changes no other socket, and no two IPv6 sockets have the same connection.", "quantifier": "every history of socket, bind, connect, listen, accept, sendto, disconnect and close on IPv4 and IPv6 sockets, every hash function, every destination", "why_tests_cant": "any history of calls on sockets of both families: sizes, orders and hash collisions are unbounded", "anchors": ["src/ofp_in6_pcb.c: ofp_in6_pcbconnect, ofp_in6_pcbladdr", "src/ofp_udp6_usrreq.c: udp6_connect", "src/ofp_tcp_usrreq.c: tcp6_connect"]}
{"id": "C192", "title": "A failed call on an IPv6 socket changes nothing", "statement": "If bind or connect of an IPv6 socket fails, the socket keeps its addresses and ports and receives the same packets as before, and no other socket changes.", "quantifier": "every history of socket, bind, connect, listen, accept, sendto, disconnect and close on IPv4 and IPv6 sockets, every hash function, every failing call", "why_tests_cant": "any history of calls on sockets of both families: sizes, orders and hash collisions are unbounded", "anchors": ["src/ofp_udp6_usrreq.c: udp6_bind, udp6_connect", "src/ofp_tcp_usrreq.c: tcp6_usr_bind, tcp6_connect"]}
{"id": "C193", "title": "The address structure passed in is not changed", "statement": "bind and sendto on an IPv6 socket do not modify the address structure of the caller, which is declared constant.", "quantifier": "every history of socket, bind, connect, listen, accept, sendto, disconnect and close on IPv4 and IPv6 sockets, every hash function, every call", "why_tests_cant": "any history of calls on sockets of both families: sizes, orders and hash collisions are unbounded", "anchors": ["src/ofp_in6_pcb.c: ofp_in6_pcbbind", "src/ofp_udp6_usrreq.c: udp6_send"]}
{"id": "C194", "title": "Disconnecting an IPv6 datagram socket", "statement": "Disconnecting a connected IPv6 datagram socket removes the whole peer address, keeps the port, and leaves a socket that can be connected again; it fails on a socket that is not connected.", "quantifier": "every history of socket, bind, connect, listen, accept, sendto, disconnect and close on IPv4 and IPv6 sockets, every hash function", "why_tests_cant": "any history of calls on sockets of both families: sizes, orders and hash collisions are unbounded", "anchors": ["src/ofp_udp6_usrreq.c: udp6_disconnect", "src/ofp_in6_pcb.c: ofp_in6_pcbdisconnect"]}
{"id": "C195", "title": "An IGMPv3 report states the filter of the group", "statement": "The records sent for a group, in answer to a query or for a change of its filter mode, are well formed, have the right type and group, fit the MTU, and together list exactly the sources in the filter mode of the group (those asked for, in answer to a query for sources), each once.", "quantifier": "every MTU from 44 to 65535 bytes, every group, filter mode and list of sources (unbounded)", "why_tests_cant": "any MTU, any number of sources in any modes and any contents of the queue: which packet a source ends in depends on all before", "anchors": ["src/ofp_igmp.c: igmp_v3_enqueue_group_record"]}
{"id": "C196", "title": "A record appended to an IGMPv3 report", "statement": "When the record of a further group is put into a report that is already being built, the records there stay as they are, the new one follows them and is exact, the count of records is right, and the packet does not exceed the MTU.", "quantifier": "every MTU from 44 to 65535 bytes, every group, filter mode and list of sources (unbounded), every report begun", "why_tests_cant": "any MTU, any number of sources in any modes and any contents of the queue: which packet a source ends in depends on all before", "anchors": ["src/ofp_igmp.c: igmp_v3_enqueue_group_record"]}
{"id": "C197", "title": "No spurious empty record", "statement": "A group record without sources is sent only if the group has no source in its filter mode (a record \"change to INCLUDE\" without sources means that the group is left).", "quantifier": "every MTU from 44 to 65535 bytes, every group, filter mode and list of sources (unbounded)", "why_tests_cant": "any MTU, any number of sources in any modes and any contents of the queue: which packet a source ends in depends on all before", "anchors": ["src/ofp_igmp.c: igmp_v3_enqueue_group_record"]}
{"id": "C198", "title": "Sources of an EXCLUDE record are in one record", "statement": "A report of EXCLUDE mode has one record for the group (RFC 3376, 4.2.16: if the sources do not fit, the list is cut), since a second one replaces the first.", "quantifier": "every MTU from 44 to 65535 bytes, every group, filter mode and list of sources (unbounded)", "why_tests_cant": "any MTU, any number of sources in any modes and any contents of the queue: which packet a source ends in depends on all before", "anchors": ["src/ofp_igmp.c: igmp_v3_enqueue_group_record"]}
{"id": "C199", "title": "A change of the source list is reported exactly", "statement": "When sources are added to or dropped from the filter of a group without a change of its mode, the report lists exactly the sources that are let through anew in ALLOW records and exactly those no longer let through in BLOCK records.", "quantifier": "every MTU from 44 to 65535 bytes, every group, filter mode and list of sources (unbounded)", "why_tests_cant": "any MTU, any number of sources in any modes and any contents of the queue: which packet a source ends in depends on all before", "anchors": ["src/ofp_igmp.c: igmp_v3_enqueue_filter_change"]}
{"id": "C200", "title": "The count of records in an IGMPv3 report", "statement": "The number of group records in the header of a report is the number of records it contains.", "quantifier": "every MTU from 44 to 65535 bytes, every group, filter mode and list of sources (unbounded)", "why_tests_cant": "any MTU, any number of sources in any modes and any contents of the queue: which packet a source ends in depends on all before", "anchors": ["src/ofp_igmp.c: igmp_v3_enqueue_group_record, igmp_v3_enqueue_filter_change, igmp_v3_encap_report"]}
{"id": "C201", "title": "Queries of IGMP versions 1 and 2 are answered", "statement": "A host on a link of version 1 or 2 that is a member of a group and gets a query for it sends the report within the maximum response time, unless it leaves or hears the report of another host.", "quantifier": "every reachable state of a link (any history of joins, leaves, queries, heard reports, ticks, any random delays), every continuation of any length", "why_tests_cant": "any history of joins, leaves, queries, reports of other hosts and timer ticks, with any random delays: what is sent depends on all of it", "anchors": ["src/ofp_igmp.c: igmp_input_v1_query, igmp_input_v2_query, igmp_v2_update_group, ofp_igmp_fasttimo, igmp_v1v2_process_group_timer"]}
{"id": "C202", "title": "General queries of IGMPv3 are answered", "statement": "A host on a link of version 3 answers a general query with a current-state record for each group it is a member of, within the maximum response time.", "quantifier": "every reachable state of a link (any history of joins, leaves, queries, heard reports, ticks, any random delays), every continuation of any length", "why_tests_cant": "any history of joins, leaves, queries, reports of other hosts and timer ticks, with any random delays: what is sent depends on all of it", "anchors": ["src/ofp_igmp.c: igmp_input_v3_query, ofp_igmp_fasttimo, igmp_v3_dispatch_general_query"]}
{"id": "C203", "title": "Group queries of IGMPv3 are answered", "statement": "A host on a link of version 3 answers a query for a group it is a member of, or for sources of it, with a current-state record within the maximum response time; later queries do not postpone the answer.", "quantifier": "every reachable state of a link (any history of joins, leaves, queries, heard reports, ticks, any random delays), every continuation of any length", "why_tests_cant": "any history of joins, leaves, queries, reports of other hosts and timer ticks, with any random delays: what is sent depends on all of it", "anchors": ["src/ofp_igmp.c: igmp_input_v3_query, igmp_input_v3_group_query, igmp_v3_process_group_timers"]}
{"id": "C204", "title": "Groups that are never reported", "statement": "Nothing is ever sent about 224.0.0.1, about 224.0.0.0/24 unless so configured, nor on an interface not for multicast.", "quantifier": "every reachable state of a link (any history of joins, leaves, queries, heard reports, ticks, any random delays), every continuation of any length", "why_tests_cant": "any history of joins, leaves, queries, reports of other hosts and timer ticks, with any random delays: what is sent depends on all of it", "anchors": ["src/ofp_igmp.c: igmp_initial_join, igmp_isgroupreported"]}
{"id": "C205", "title": "State changes of IGMPv3 are reported robustness-variable times", "statement": "After a join (a leave) of a group on a link of version 3 the change is reported exactly as many times as the robustness variable says, within that many intervals; after the leave the group is then gone.", "quantifier": "every reachable state of a link (any history of joins, leaves, queries, heard reports, ticks, any random delays), every continuation of any length", "why_tests_cant": "any history of joins, leaves, queries, reports of other hosts and timer ticks, with any random delays: what is sent depends on all of it", "anchors": ["src/ofp_igmp.c: igmp_initial_join, igmp_final_leave, igmp_v3_process_group_timers, igmp_v3_merge_state_changes"]}
{"id": "C206", "title": "The compatibility mode ends", "statement": "When no query of an older version has been heard for the older-version-querier-present time, the host speaks version 3 again (RFC 3376, 7.2.1).", "quantifier": "every reachable state of a link (any history of joins, leaves, queries, heard reports, ticks, any random delays), every continuation of any length", "why_tests_cant": "any history of joins, leaves, queries, reports of other hosts and timer ticks, with any random delays: what is sent depends on all of it", "anchors": ["src/ofp_igmp.c: igmp_set_version, ofp_igmp_slowtimo"]}
{"id": "C207", "title": "The report of a join is repeated", "statement": "On a link of version 1 or 2 the unsolicited report sent at a join is repeated after a random delay (RFC 2236, 3: in case the first is lost).", "quantifier": "every reachable state of a link (any history of joins, leaves, queries, heard reports, ticks, any random delays), every continuation of any length", "why_tests_cant": "any history of joins, leaves, queries, reports of other hosts and timer ticks, with any random delays: what is sent depends on all of it", "anchors": ["src/ofp_igmp.c: igmp_initial_join, igmp_v1v2_process_group_timer"]}
{"id": "C208", "title": "A group joined again is reported", "statement": "A host that leaves a group and joins it again is from then on a member whose membership is reported like any other.", "quantifier": "every reachable state of a link (any history of joins, leaves, queries, heard reports, ticks, any random delays), every continuation of any length", "why_tests_cant": "any history of joins, leaves, queries, reports of other hosts and timer ticks, with any random delays: what is sent depends on all of it", "anchors": ["src/ofp_igmp.c: igmp_change_state, igmp_initial_join, igmp_v3_process_group_timers"]}
{"id": "C209", "title": "Response codes of IGMPv3 are decoded", "statement": "The maximum response time of a query of version 3 is decoded after RFC 3376, 4.1.1 (codes from 128 on are floating point).", "quantifier": "every code", "why_tests_cant": "the claim is an equality for every code; tests have only used small ones", "anchors": ["include/ofpi_igmp.h: IGMP_MANT, IGMP_EXP", "src/ofp_igmp.c: igmp_input_v3_query"]}
{"id": "C210", "title": "Queries of IGMP versions 1 and 2 are recognised", "statement": "An IGMP query of 8 bytes is handled as a query of version 1 (code 0) or 2.", "quantifier": "every datagram with IGMP content, IP header length and offset of the IP header, any contents of the memory behind the packet", "why_tests_cant": "any packet from the wire and any memory behind it", "anchors": ["src/ofp_igmp.c: ofp_igmp_input"]}
{"id": "C211", "title": "General queries of IGMPv3 are recognised", "statement": "A well-formed general query of version 3 is handled as such, with the code, robustness variable and interval it carries.", "quantifier": "every datagram with IGMP content, IP header length and offset of the IP header, any contents of the memory behind the packet", "why_tests_cant": "any packet from the wire and any memory behind it", "anchors": ["src/ofp_igmp.c: ofp_igmp_input, igmp_input_v3_query"]}
{"id": "C212", "title": "The IGMP checksum is over the message", "statement": "An IGMP message is dropped if and only if the checksum over the message is bad; what follows it in memory does not matter.", "quantifier": "every datagram with IGMP content, IP header length and offset of the IP header, any contents of the memory behind the packet", "why_tests_cant": "any packet from the wire and any memory behind it", "anchors": ["src/ofp_igmp.c: ofp_igmp_input"]}
{"id": "C213", "title": "Names lead to the variable registered under them", "statement": "ofp_sysctl with a dotted name acts on the variable registered under this path, and fails with ENOENT if none is; a dot at the end makes no difference.", "quantifier": "every tree made by any sequence of registrations and additions, every name, every buffer length, every new value", "why_tests_cant": "the claim ranges over every tree that registrations can make, in any order, and every name and value", "anchors": ["src/ofp_sysctl.c: ofp_sysctl, kernel_sysctlbyname, name2oid, ofp_sysctl_find_oid, sysctl_register_oid"]}
{"id": "C214", "title": "Adding a variable adds it and nothing else", "statement": "ofp_sysctl_add_oid with a new name makes exactly this entry, with what was asked for; everything registered before keeps its path. With a name that is taken it changes nothing, and gives back the entry only if it is a node.", "quantifier": "every tree made by any sequence of registrations and additions, every name, every buffer length, every new value", "why_tests_cant": "the claim ranges over every tree that registrations can make, in any order, and every name and value", "anchors": ["src/ofp_sysctl.c: ofp_sysctl_add_oid, sysctl_register_oid"]}
{"id": "C215", "title": "Numbers and structures are read and written whole", "statement": "A call on a number or structure reads the old value whole, or gives ENOMEM and the part that fits and changes nothing; a new value that is too short is refused, otherwise exactly this variable has it.", "quantifier": "every tree made by any sequence of registrations and additions, every name, every buffer length, every new value", "why_tests_cant": "the claim ranges over every tree that registrations can make, in any order, and every name and value", "anchors": ["src/ofp_sysctl.c: sysctl_handle_int, sysctl_handle_long, sysctl_handle_64, sysctl_handle_opaque, sysctl_old_kernel, sysctl_new_kernel, sysctl_root"]}
{"id": "C216", "title": "Read-only variables do not change", "statement": "No history of calls and registrations changes a variable that is only registered read-only.", "quantifier": "every history of registrations, additions and calls", "why_tests_cant": "the claim ranges over every tree that registrations can make, in any order, and every name and value", "anchors": ["src/ofp_sysctl.c: sysctl_root, ofp_sysctl"]}
{"id": "C217", "title": "Strings stay within their buffer", "statement": "A string that is written through ofp_sysctl is refused if it does not fit the buffer with its zero, otherwise it is what is read from then on; nothing outside of the buffer is written.", "quantifier": "every tree made by any sequence of registrations and additions, every name, every buffer length, every new value", "why_tests_cant": "a value of more than 2 GB is not in any test, and the buffer contents are arbitrary", "anchors": ["src/ofp_sysctl.c: sysctl_handle_string"]}
{"id": "C218", "title": "Times are kept in milliseconds", "statement": "A time in milliseconds that is written is refused if it is less than a tick, otherwise it is read back, rounded down to a tick.", "quantifier": "every value of the type, every entry of this kind", "why_tests_cant": "an equality for every 32-bit value", "anchors": ["src/ofp_sysctl.c: sysctl_msec_to_ticks"]}
{"id": "C219", "title": "Options that are switched read back as they were set", "statement": "ofp_setsockopt of an option that is switched refuses a value shorter than an int; otherwise ofp_getsockopt then gives 0 if the value was 0 and another number if not, and every other option reads as before.", "quantifier": "every socket, every value of every length, every option", "why_tests_cant": "the claim is about every value and every history of calls on a socket", "anchors": ["src/ofp_uipc_socket.c: ofp_sosetopt, ofp_sogetopt, ofp_sooptcopyin, ofp_sooptcopyout", "src/ofp_syscalls.c: ofp_setsockopt, ofp_getsockopt"]}
{"id": "C220", "title": "Buffer sizes and low-water marks are exact and consistent", "statement": "In every history the low-water marks are at least 1 and at most the sizes, which are within the limit; a size or mark that is set is refused if out of range, with nothing changed, and otherwise is what is read, lowered to the size for a mark.", "quantifier": "every history of calls on a socket, and of sockets accepted on it", "why_tests_cant": "the claim is about every value and every history of calls on a socket", "anchors": ["src/ofp_uipc_socket.c: ofp_sosetopt, sonewconn", "src/ofp_uipc_sockbuf.c: ofp_sbreserve_locked, ofp_soreserve"]}
{"id": "C221", "title": "The option to linger reads back as set", "statement": "After OFP_SO_LINGER is set with success, reading it gives the same switch and the same time.", "quantifier": "every socket, every value of every length, every option", "why_tests_cant": "the claim is about every value and every history of calls on a socket", "anchors": ["src/ofp_uipc_socket.c: ofp_sosetopt, ofp_sogetopt"]}
{"id": "C222", "title": "Timeouts read back as set, and are waited for", "statement": "A time set with OFP_SO_RCVTIMEO or OFP_SO_SNDTIMEO is refused if out of range; otherwise it is what is read, and what a call that waits sleeps at most, for ever just if it is 0.", "quantifier": "every number of seconds and microseconds", "why_tests_cant": "the arithmetic of 32 bits only shows at large times", "anchors": ["src/ofp_uipc_socket.c: ofp_sosetopt, ofp_sogetopt, ofp_soreceive_generic", "src/ofp_uipc_sockbuf.c: ofp_sbwait"]}
{"id": "C223", "title": "A call that fails changes nothing", "statement": "ofp_setsockopt that fails leaves the socket as it was.", "quantifier": "every socket, every value of every length, every option", "why_tests_cant": "the claim is about every value and every history of calls on a socket", "anchors": ["src/ofp_uipc_socket.c: ofp_sosetopt", "src/ofp_tcp_usrreq.c: ofp_tcp_ctloutput", "src/ofp_udp_usrreq.c: ofp_udp_ctloutput"]}
{"id": "C224", "title": "Success means effect", "statement": "ofp_setsockopt that succeeds has set the option, ofp_getsockopt that succeeds has written its value; options that are not known are refused.", "quantifier": "every level, every option, every value", "why_tests_cant": "no test tries every level and option", "anchors": ["src/ofp_tcp_usrreq.c: ofp_tcp_ctloutput", "src/ofp_udp_usrreq.c: ofp_udp_ctloutput", "src/ofp_in_mcast.c: ofp_ip_ctloutput"]}
{"id": "C225", "title": "Calls leave no lock held", "statement": "After ofp_setsockopt or ofp_getsockopt has returned, the locks of the socket are as before.", "quantifier": "every socket, every value of every length, every option", "why_tests_cant": "a lock that is left held only shows in a later call", "anchors": ["src/ofp_udp_usrreq.c: ofp_udp_ctloutput", "src/ofp_tcp_usrreq.c: ofp_tcp_ctloutput"]}
{"id": "C226", "title": "An error is reported once", "statement": "Reading OFP_SO_ERROR gives the last error that came in since it was last read, and 0 if none did.", "quantifier": "every history of calls and errors", "why_tests_cant": "the claim is about every value and every history of calls on a socket", "anchors": ["src/ofp_uipc_socket.c: ofp_sogetopt"]}
{"id": "C227", "title": "Accepted sockets have the options of the listening socket", "statement": "Every option but the error and those about listening reads on an accepted socket as on the one it was accepted on, and a buffer size that was set stays.", "quantifier": "every history of the listening socket", "why_tests_cant": "the claim is about every value and every history of calls on a socket", "anchors": ["src/ofp_uipc_socket.c: sonewconn", "src/ofp_tcp_usrreq.c: tcp_attach"]}
{"id": "C228", "title": "A line calls the command it says, with the parameters it gives", "statement": "What a line of the command line calls is a command that was added, whose keywords are the words of the line and whose parameters are accepted values, which it is given in order; and a line that says just one command calls it. A line that says no command calls nothing.", "quantifier": "every set of commands, every line", "why_tests_cant": "the claim is about every set of commands and every line", "anchors": ["src/cli/ofp_cli.c: parse, find_next_vertical, find_next_horizontal"]}
{"id": "C229", "title": "Commands can be added", "statement": "Adding a command or an alias succeeds, and the commands that were there are still there.", "quantifier": "every set of commands, in every order", "why_tests_cant": "the claim is about every set of commands and every line", "anchors": ["src/cli/ofp_cli.c: add_command, ofp_cli_add_command, f_add_alias_command"]}
{"id": "C230", "title": "The parameters of a line fit their buffer", "statement": "For every line that can be typed the parameters handed to a command fit the buffer that holds them.", "quantifier": "every line of up to 199 characters", "why_tests_cant": "the buffer is overrun only by long lines", "anchors": ["src/cli/ofp_cli.c: parse"]}
{"id": "C231", "title": "IPv4 addresses are taken as they are written", "statement": "Just four decimal numbers up to 255 with dots between them are accepted as an IPv4 address, and are read as the address that is meant.", "quantifier": "every string", "why_tests_cant": "strings are too many to try", "anchors": ["src/cli/ofp_cli.c: ip4addr_ok, ip4addr_get, octet_ok, int_ok"]}
{"id": "C232", "title": "IPv6 addresses are taken as they are written", "statement": "Just the eight groups, or fewer with one pair of colons, that are an IPv6 address are accepted, and are read as the address that is meant.", "quantifier": "every string", "why_tests_cant": "strings are too many to try", "anchors": ["src/cli/ofp_cli.c: ip6addr_ok, ofp_ip6addr_get"]}
{"id": "C233", "title": "What is typed is what is carried out", "statement": "A line that is typed, with characters deleted again with the backspace key, is carried out just as it then stands; the next starts empty.", "quantifier": "every line of up to 199 characters", "why_tests_cant": "the claim is about every sequence of keys", "anchors": ["src/cli/ofp_cli.c: cli_read"]}
{"id": "C234", "title": "Keys do not overrun the line", "statement": "Whatever bytes come from the client, the line and the lines that are kept fit their buffers.", "quantifier": "every sequence of bytes", "why_tests_cant": "the sequences that overrun a buffer are long", "anchors": ["src/cli/ofp_cli.c: cli_read, cli_read_char, parse"]}
{"id": "C235", "title": "Completion does not spoil the line", "statement": "A tab or a question mark only puts behind the line the rest of a word that may stand there.", "quantifier": "every set of commands, every line", "why_tests_cant": "the claim is about every set of commands and every line", "anchors": ["src/cli/ofp_cli.c: parse, cli_read"]}
{"id": "C236", "title": "Earlier lines come back", "statement": "The key for earlier lines, pressed k times, gives the k-th last line; the key for later ones goes back one step.", "quantifier": "every sequence of lines", "why_tests_cant": "the claim is about every history of lines", "anchors": ["src/cli/ofp_cli.c: cli_read"]}
{"id": "C237", "title": "Telnet commands and special keys are no text", "statement": "Commands of the telnet protocol and keys that send several bytes leave the line as it is, but for what the key is for.", "quantifier": "every telnet command, every key", "why_tests_cant": "the sequences come from clients of all kinds", "anchors": ["src/cli/ofp_cli.c: cli_read"]}
{"id": "C238", "title": "An alias carries out what it was set to", "statement": "After aliases have been set, in any order and again, the name of each carries out the command it was set to last; setting one changes no other.", "quantifier": "every history of aliases being set", "why_tests_cant": "which entry is taken depends on all aliases set before", "anchors": ["src/cli/ofp_cli_alias.c: f_alias_set", "src/cli/ofp_cli.c: f_run_alias, f_add_alias_command, cli_read, parse"]}
{"id": "C239", "title": "A line is carried out once", "statement": "A line, or the command of the alias it names, is carried out when it is entered, and never again with a later one.", "quantifier": "every state of the aliases, every line", "why_tests_cant": "the rest of a line only shows with the next", "anchors": ["src/cli/ofp_cli.c: f_run_alias, f_add_alias_command, cli_read, parse"]}
{"id": "C240", "title": "Setting an alias does not stop the program", "statement": "alias set with any name and any command returns.", "quantifier": "every name and command, every state of the aliases", "why_tests_cant": "names and commands are too many to try", "anchors": ["src/cli/ofp_cli_alias.c: f_alias_set", "src/cli/ofp_cli.c: f_run_alias, f_add_alias_command, cli_read, parse"]}
{"id": "C241", "title": "The packet rate is that of the packets", "statement": "The rate in ofp_get_perf_statistics follows the packets that all threads receive per second: if that is the same in every period, the rate comes closer to it by half in each.", "quantifier": "every number of threads, packets and periods", "why_tests_cant": "the claim is about a history of periods", "anchors": ["src/ofp_stat.c: ofp_perf_tmo, ofp_get_perf_statistics"]}
{"id": "C242", "title": "The rate is computed once a period while it is switched on", "statement": "While OFP_STAT_COMPUTE_PERF is set just one timer for the rate is running, whatever was switched before.", "quantifier": "every history of ofp_set_stat_flags and timers", "why_tests_cant": "it depends on when the flag is switched", "anchors": ["src/ofp_stat.c: ofp_perf_tmo, ofp_set_stat_flags"]}
{"id": "C243", "title": "Computing the rate does not stop the program", "statement": "A timer for the rate that runs off at any time returns.", "quantifier": "every time, every state", "why_tests_cant": "it takes two timers at the same time", "anchors": ["src/ofp_stat.c: ofp_perf_tmo"]}
{"id": "C244", "title": "A hardware address is recognised", "statement": "An interface is taken to have a hardware address just if it is not all zero.", "quantifier": "every hardware address", "why_tests_cant": "2^48 addresses", "anchors": ["src/ofp_util.c: ofp_has_mac"]}
