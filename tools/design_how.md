How they are proved, by topic:

* **Checksums**: the word loop keeps "sum mod 2^16-1"; folding preserves it; byte order by a swap lemma.
* **Radix tables**: abstraction of the trie to a finite map from prefixes to data; every operation refines the map
  operation; node counts by a conservation invariant.
* **mtrie**: an invariant per table slot ("the best rule among those of this level covering the slot"), preserved by
  fair calls; witnesses for the rest.
* **ARP and routes**: small-step transition system with one step per critical section; invariant on entry places
  (free list, set chain) and a ghost map of the latest MAC; refinement over all interleavings.
* **Reassembly, fragmentation**: each queued fragment is a slice of the datagram; loop invariants; composition gives
  the round trip.
* **Timers, epoll, socket buffers, memory zones**: refinement to a map / queue / set of handles.
* **TCP receive**: the queue is a chain of slices at stream offsets (no wrap-around), related to sequence numbers by
  `seqOf`; `diff_eq` transfers every comparison.
* **SACK sender**: invariants directly on circular distances `off snd_una x`; the sweep is proved block by block; a
  ghost set of reported bytes gives exactness over histories.
* **SACK receiver**: refinement of `ofp_tcp_update_sack_list` to the same function on stream offsets, and a coverage
  invariant (report ⊆ queue ∪ delivered) through window trimming and reassembly.
* **IPsec policies**: index-based memory, invariant with separation of database, lookup and free lists, ghost
  reference counts per holder.
* **TCP options**: every byte string splits uniquely into TLV items and a stopper; the parser refines the meaning of
  the items; the writer's output is such a sequence.
* **Control blocks**: structural invariant (each chain holds exactly the bound blocks whose fields hash there, port
  lists exactly the blocks of the port) preserved by every call for every hash function; lookups, port search and
  conflict tests are then characterised by the set of bound blocks alone.
* **IPv4 input and output**: the functions return a code and a trace of events on numbered buffers; every outside
  decision is an oracle. An accounting predicate (drop = not yet disposed of, processed = disposed of once) is
  composed through all functions; content theorems compute the packet sent from the packet received.
* **TCP sender**: one pass of `ofp_tcp_output`, `ofp_tcp_do_segment` and the timers as functions of a control block and an
  environment; the main invariant places `snd_una`, `snd_nxt`, `snd_max` in the stream by unbounded positions. A second,
  coarser view (`Moves`) lists elementary moves and shows that every event is a composition of them; timer, state
  machine, FIN and buffer properties are induction over moves.
* **Life of sockets**: one step per stretch of code under a lock, program counters of the threads inside accept and close
  in the state; an ownership map (who has the socket) as ghost state, preserved by every event of every interleaving.
* **Sleeping**: refinement of the record lists by the machine callers see, then one induction per question. For lost wakeups
  the waiting loops, their lock and the threads that change the condition are interleaved; the invariant bounds what is
  there by the wakeups outstanding, the threads woken and the thread at the check.
* **Half-open connections**: cookie arithmetic by words (what the receiver reads in what the sender wrote), provenance of
  entries and conservation of records by induction over histories, an invariant on the two secrets for the lifetime of a cookie.
* **SA database**: like the policy database, a simulation between the cell array and the database users see; the destroyer's
  program counter is part of the state, so destructions interleave with everything else. Flushing by induction on what is left.
* **Datagram sockets**: the delivery loop is replaced by a list of receivers (`multiLoop_eq`); histories carry what came in and
  what was read, and an invariant splits the former into read, queued and dropped. The round trip is by the bytes of the wire image
  and the checksum theorem of `Cksum` (sum without checksum field plus its complement).
* **Balanced tree**: inductive trees with a list of frames for the parent pointers; one lemma per climbing loop (`climb_bal`,
  `shrink_bal` for heights and contents, `climb_rank`, `shrink_rank` for the 30-bit ranks), descents by induction on the tree.
  Histories are compared with a bag (`SpecRun`) and, for the rule table, with an association list (`mrun`).
* **C125–C128** (`Md5`): MD5Transform is kept as the list of its 64 macro calls on four named variables; groups of four calls are four steps of the RFC's round function. A context invariant (whole blocks absorbed, rest at the start of the buffer, bit count) is kept by each update, accesses outside arrays being faults. The ISN counter is compared with two counters over ℕ.
* **C129** (`Burst`): a flat packet table with faults; invariant: the packets waiting per port sit in the port's slots; the log of what happened to each packet, per port, followed by the waiting packets is the sequence handed over.
* **C130–C138** (`Rto`): machine integers as `Int` with explicit conversions; `rangeSet_bounds` needs no assumption (it absorbs any overflow), `Avg` bounds the averages so that below 87 minutes nothing overflows and the arithmetic is exact. Histories by induction with the invariants `Rng`, `Avg`, `Hull`; silence by `silent_inv`. Keep-alive: time and timers explicit, invariant `KInv` (the stored time of the last segment lags by at most a second, the timer is set before the limit). The congestion window is a small machine with every assignment in the source.
* **C139–C141** (`Callout`): ODP timers as a function from handles to free / armed / queued / running, callouts as a function; every interleaving is a list of operations. `stopped_does_not_run` needs only the active flag; `CalmInv` (at most one underlying timer per callout, its time not before the one asked for) and `KeptInv` (a remembered handle belongs to the callout) by induction.
* **C142–C146** (`Tw`): the queue of TIME_WAIT entries; invariant: sorted by the time of the last restart, stored expiry is that time plus 2 MSL modulo 2^32, no control block twice, bounded. `ack_war_violated` runs two hosts against each other. `Fw2` adds time and the FIN_WAIT_2 timer.
* **C147–C153** (`Mcast`): memberships as one list, group records with their 16-bit counters. `step_exact`: every call refines the specification of RFC 3678 in `Spec` (invariant `Good`: nothing pending, one mode, no source twice). `Refs`: references of a record are memberships + holds of IGMP + those leaked by closes. `CInv`: every counter of a record is the sum over the members, modulo 2^16; `record_counts` turns the sums into numbers of members.
* **C154–C165** (`Ip6`): the state is the tree of `Radix` with next-hop records, waiting packets and a trace of buffer events. Ownership (`phi`: events that end a buffer + places where it waits) is followed through every function (`Own`, `Rx`), histories by induction (`Hist`); `Inv` ties the tree to the abstract table of `Radix.Spec` so that routes can be stated as longest match. Violations run whole histories from initialisation (`World` reduces the checksum loops by lemmas).
* **C166–C174** (`Ifcfg`): interfaces as a partial function of (port, VLAN), the routing table as a partial function of (VRF, network, length). Invariant `Good`; exact effects of each call as state equations (`Effect`, `Props`, `Props2`); the loop of `ofp_free_ifnet_ip_list`, which reads masks from the list it is destroying, by an invariant on positions (`freeLoop_eq`); histories by induction (`run_good`); look-ups by uniqueness of owners.
* **C175–C179** (`Vxlan/Tab*`, `Conc*`): the open-addressing table as a function from slots; a look-up is characterised by the first slot of the probe sequence with the key or free (`getMac` specification in `TabLemmas`), learning by the first slot where it stops; invariants by induction over histories. Threads split the calls at their atomic instructions; the invariant of `ConcProps` says that keys and addresses in the table and in local variables were passed to some call. **C180–C186** (`Encap`, `GreProps`): packets as byte lists with head room; exact bytes by splitting lists.
* **C187–C194** (`Pcb6`): the table of `Pcb` plus the high words and IPv6 flags of each block; the IPv4 functions are reused and shown not to move blocks of other sockets (`Keep`). Invariant `Inv6`: that of `Pcb`, and blocks that are neither bound nor dropped are blank in both families. Look-ups are characterised by `Takes6`, conflicts by `Free6`, every call by its exact effect on the table (`Ops`, `Hist`), histories by induction (`Reach6.inv`).
* **C195–C200** (`Igmp/Rec*`, `Change`): packets as lists of 32-bit words; the specification is a reader of group records after RFC 3376 (`parse`). The loops that fill packets preserve "taken ++ remaining = chosen" (`takeSrcs_exact`), by induction over the tree; filter changes by the invariant `Holds` (the packets read as the records so far) and the lemma that after a full record the tail has no room (`round_kind`).
* **C201–C209** (`Igmp/Host*`): one link with its list of groups, as a transition system whose events are joins, leaves, queries, heard reports and ticks; every event acts on each group on its own (`act`, `HostAct`). Invariant `Inv` (versions, timers, states that fit) by induction over histories; "answered in time" by a ranking argument (`Waits12`, `Waits3`: the timer bounds the ticks left, every undisturbed event keeps it); "never" by invariants of the group alone (`Only`); the exact number of reports by the schedule `Sched` (`HostChange`). **C210–C212** (`Igmp/Input`): the packet is a function from addresses to bytes, also behind its end; checksums from `Cksum`.
* **C213–C218** (`Sysctl`): the tree is a family of lists; the specification `At` says which entry is under which path, without numbers. Induction over the path shows that names are translated to numbers and back to the same entry (`walk_at`, `at_walk`), from the invariants that names (always) and numbers (under the rules of `FairReach`) of siblings differ; values are byte strings.
* **C219–C227** (`Sockopt`): one socket and a transition system of calls, errors and accepts. Claims are about what `getsockopt` gives (`ReadsInt`, `ReadsSame` for every other option); `C220` by the invariant `Buf.Ok` over all histories, `C226` by induction over the history behind the last error or reading.
* **C228–C237** (`Cli`): commands are lists of words (`build`), the tree is shown to hold just their paths (`paths`, by induction over adding); `Says` and `Only` define, without the tree, that a list of tokens says a command and no other; parsers of addresses are proved against `dotted`, `join` and `value`, by induction over the string, with the state of the C loop as invariant. Lines are edited by a transition system of bytes (`keys`); `C234` by the invariant `Small`, `C236` by `Ring` (which slot holds which line), by induction over the lines.
* **C238–C240** (`Cli/Alias`): the table, the tree and the alias to be run next are a state; aliases are set in any history (`setAll`), with the invariant `Set` (which names the table has, what each was set to last, and that the tree has one more word for each), by induction; that the name then carries it out follows from `found_exact`.
* **C241–C243** (`Stat`): counters, clock, flag and the number of running timers are a state; `C241` is exact for one period (`measured_exact`) and converges by induction over the periods; `C242` by an invariant over all histories of `set` and timers.
* **C244** (`Util`): a statement about six bytes, by propositional reasoning.
