{"id": "C01", "title": "Varint round-trip and self-delimitation", "statement": "Encoding any u32 length/sequence as a varint gives 1 to 5 bytes, and decoding those bytes followed by any other bytes returns exactly that value and exactly that many consumed bytes.", "quantifier": "every u32 value and every byte string that may follow it on the wire", "why_tests_cant": "2^32 values times unbounded tails; boundary bytes at 7-bit group edges and the 5th byte cannot be sampled exhaustively.", "anchors": ["memberlist-proto/src/framing/mod.rs: encode_varint_u32, decode_varint_u32"]}
{"id": "C02", "title": "Varint decoder totality and strictness", "statement": "On arbitrary input the varint decoder never reads past the buffer or past 5 bytes, never returns a value of 2^32 or more, answers 'incomplete' exactly when a longer input could still succeed, and its accept/reject verdict on a prefix is never changed by bytes that arrive later.", "quantifier": "every byte string and every extension of it", "why_tests_cant": "The claim compares the decoder's answers on all prefixes of all byte strings.", "anchors": ["memberlist-proto/src/framing/mod.rs: decode_varint_u32"]}
{"id": "C03", "title": "Plain frame round-trip and boundary exactness", "statement": "A frame built from a tag and a body decodes back to the same tag and body, consuming exactly the frame and nothing of the bytes that follow; every strict prefix of a frame is reported incomplete; an accepted frame never extends past the buffer.", "quantifier": "every message tag, every body under 2^32 bytes, every following byte string, every cut point", "why_tests_cant": "Unbounded body lengths, all cut points and all continuations.", "anchors": ["memberlist-proto/src/framing/mod.rs: encode_plain_frame, decode_plain_frame, MessageTag"]}
{"id": "C04", "title": "Compound packet round-trip and rejection", "statement": "Packing two or more frames into a compound packet and splitting it returns exactly the packed frames in order. A compound packet is never accepted with fewer than two parts, with a part that runs past the packet, or with bytes left over after the last part; the number of parts is at most the number of bytes received.", "quantifier": "every list of two or more frames of any size, and every byte string offered to the splitter", "why_tests_cant": "Unbounded list lengths and adversarial byte strings.", "anchors": ["memberlist-proto/src/framing/mod.rs: encode_compound, decode_compound"]}
{"id": "C05", "title": "Typed message round-trip", "statement": "Every protocol message (ping, indirect ping, ack, nack, suspect, alive, dead, push/pull, user data, error response) decodes from its own encoding back to an equal message, including every metadata, payload and state list, unknown version bytes and unknown state bytes.", "quantifier": "every message value whose id and address types themselves round-trip, with any payload sizes", "why_tests_cant": "Ten recursive message shapes with unbounded byte fields and unbounded repeated states.", "anchors": ["memberlist-proto/src/framing/mod.rs: encode_message, decode_message", "memberlist-proto/src/bridge/mod.rs: message_to_any, message_from_any", "memberlist-proto/proto/memberlist/v1/messages.proto"]}
{"id": "C06", "title": "Required fields and value ranges enforced on decode", "statement": "A message body that omits a required field (incarnation, node, from, sequence number, source, target, id, addr, state) or carries a version or state larger than one byte is rejected, never filled in with a default; an omitted version decodes as V1 while an explicit 0 stays distinguishable.", "quantifier": "every decoded protobuf field assignment of the message schemas", "why_tests_cant": "Adversarial peers choose any combination of present, absent, duplicated and unknown fields.", "anchors": ["memberlist-proto/src/bridge/mod.rs: require_bytes, alive_from_pb, suspect_from_pb, dead_from_pb, ping_from_pb, state_from_pb, checked_version_byte, versioned"]}
{"id": "C07", "title": "Cluster label admission", "statement": "A datagram is admitted exactly when its label header equals the configured label, or when neither side has a label; traffic with another cluster's label, with no label where one is required, or with a label where none is configured is rejected. On reliable streams a labelled node applies the same rule, except that unlabelled traffic is admitted when the skip flag allows it; a node with no label passes stream bytes through uninspected. A label header written by the sender is always admitted by a receiver with the same label and exactly the header is removed.", "quantifier": "every configured label, skip flag and byte string", "why_tests_cant": "All label byte strings and all inputs, including malformed, overlong and non-UTF-8 headers.", "anchors": ["memberlist-proto/src/label/mod.rs: classify_header, encode_label_prefix, validate_label, effective_label", "memberlist-proto/src/codec/mod.rs: decode_incoming, wrap_label"]}
{"id": "C08", "title": "Label verdict does not depend on chunking", "statement": "For a reliable stream, the label verdict and the bytes delivered to the protocol after the header are the same however the transport splits the byte stream, and fewer than 255 header bytes are ever buffered while undecided. A dialer sends its label header once, first; an acceptor sends nothing until the peer's label has been admitted.", "quantifier": "every byte stream and every way of cutting it into chunks", "why_tests_cant": "Exponentially many chunkings of every stream.", "anchors": ["memberlist-proto/src/streams/label.rs: LabelGate::consume_inbound", "memberlist-proto/src/label/mod.rs: classify_header"]}
{"id": "C09", "title": "Transform pipeline is canonical", "statement": "A received datagram is accepted only if its wrappers occur at most once each and in the order encryption, checksum, compression; repeated or re-ordered wrappers are rejected, and the unwrapping always terminates with output no longer than the configured maximum.", "quantifier": "every byte string, every configured maximum, every behaviour of the compression/cipher/digest primitives", "why_tests_cant": "Adversarial nesting depth is unbounded.", "anchors": ["memberlist-proto/src/framing/mod.rs: unwrap_transforms, unwrap_transforms_with_encryption"]}
{"id": "C10", "title": "Transform pipeline round-trip", "statement": "Whatever combination of compression, checksum and encryption the sender enables, a receiver with the matching configuration recovers exactly the bytes the sender wrapped.", "quantifier": "every payload within the size limit, every combination of enabled transforms, every choice of algorithm, key and nonce", "why_tests_cant": "Unbounded payloads times all configurations.", "anchors": ["memberlist-proto/src/framing/mod.rs: unwrap_transforms_with_encryption", "memberlist-proto/src/checksum/mod.rs: encode_checksummed_frame, decode_checksummed_frame", "memberlist-proto/src/encryption/mod.rs: encode_encrypted_frame, decode_encrypted_frame", "memberlist-proto/src/compression/mod.rs"]}
{"id": "C11", "title": "Encryption-enabled nodes accept no cleartext", "statement": "When encryption is enabled, every gossip datagram accepted was sealed under a key in the keyring: a datagram that is not an encryption frame, or whose frame does not authenticate under any ring key of the frame's algorithm, yields an error and no plaintext.", "quantifier": "every byte string and keyring", "why_tests_cant": "The adversary chooses all bytes.", "anchors": ["memberlist-proto/src/framing/mod.rs: unwrap_transforms_with_encryption", "memberlist-proto/src/encryption/mod.rs: decode_encrypted_frame"]}
{"id": "C12", "title": "Keyring rotation is safe", "statement": "After any sequence of insert, remove and promote calls the keyring has exactly one primary, never holds two copies of a key, promotion keeps the set of usable keys unchanged, removal never removes the primary and removes only the named key, and a frame sealed under any key still in the ring still decrypts.", "quantifier": "every initial ring and every sequence of keyring operations", "why_tests_cant": "Histories of rotation operations are unbounded.", "anchors": ["memberlist-proto/src/encryption/mod.rs: Keyring::{new,with_secondaries,insert_secondary,remove_secondary,promote}, decode_encrypted_frame"]}
{"id": "C13", "title": "Socket-address encoding is injective and exact", "statement": "An IPv4 or IPv6 socket address encodes to 7 or 19 bytes and decodes back to itself; distinct addresses have distinct encodings; any other length or family tag is rejected; an IPv6 address with scope id or flow info is refused rather than silently altered.", "quantifier": "every address, port and byte string", "why_tests_cant": "2^144 addresses.", "anchors": ["memberlist-proto/src/convert/mod.rs", "memberlist-proto/src/data/primitives.rs: SocketAddr"]}
{"id": "C14", "title": "CIDR policy decides exactly by prefix membership", "statement": "After any sequence of add/remove operations an address is admitted exactly when the policy was never restricted (allow-all) or some currently listed network contains it; removing networks never turns a restricted policy back into allow-all; remove_by_ip leaves no network containing that address.", "quantifier": "every operation sequence, network and address", "why_tests_cant": "Unbounded operation histories over all prefixes.", "anchors": ["memberlist-proto/src/cidr/mod.rs: CidrPolicy::{add,remove,remove_by_ip,is_allowed,allow_all,block_all}"]}
{"id": "C15", "title": "Deadline index is an exact min-map", "statement": "After any sequence of set, clear and remove operations, the deadline index reports as earliest exactly the minimum deadline over the keys whose latest set was a deadline, and re-arming a key replaces (never duplicates) its entry.", "quantifier": "every sequence of index operations over any keys and times", "why_tests_cant": "Unbounded histories with equal deadlines, re-arms and removals interleaved.", "anchors": ["memberlist-proto/src/endpoint/deadline/mod.rs: DeadlineIndex::{set,earliest,clear}"]}
{"id": "C16", "title": "Member table stays consistent", "statement": "After any sequence of inserts, random-position inserts, removals and shuffles, looking up an id finds exactly the member with that id, every member is found at exactly one position, no id appears twice, and shuffling only permutes the order.", "quantifier": "every operation sequence and every choice of random indices", "why_tests_cant": "Unbounded histories and random choices.", "anchors": ["memberlist-proto/src/members/mod.rs: Members::{insert,insert_at_random_at,remove,shuffle,get}"]}
{"id": "C17", "title": "Gossip queue keeps one newest claim per node", "statement": "After any sequence of operations the gossip queue never holds two broadcasts with the same identity; queueing a new claim about a node replaces the older one; the ordered queue and its identity index describe the same set.", "quantifier": "every sequence of queue, take, prune and reset operations", "why_tests_cant": "Ids are recycled when the queue drains, so the claim depends on the whole history.", "anchors": ["memberlist-proto/src/broadcast/mod.rs: BroadcastQueue::{queue_broadcast,take_broadcasts_measured,take_one_broadcast,prune,reset,insert_into}"]}
{"id": "C18", "title": "Broadcasts are retransmitted a bounded number of times and each finishes once", "statement": "Each queued broadcast is handed out at most max(1, retransmit limit) times and its completion notification fires at most once; it fires exactly when the broadcast leaves the queue (limit reached, superseded, pruned or reset), so every broadcast is either still queued or has been completed exactly once.", "quantifier": "every sequence of queue operations, cluster sizes and budgets", "why_tests_cant": "Depends on whole histories of partial drains under varying budgets and cluster sizes.", "anchors": ["memberlist-proto/src/broadcast/mod.rs: BroadcastQueue::take_broadcasts_measured, take_one_broadcast, retransmit_limit"]}
{"id": "C19", "title": "Queue drains respect the byte budget", "statement": "A drain never returns messages whose encoded sizes plus per-message overhead exceed the byte budget, and reports exactly that total.", "quantifier": "every queue content, overhead, budget and cluster size", "why_tests_cant": "All message-size combinations.", "anchors": ["memberlist-proto/src/broadcast/mod.rs: take_broadcasts_measured, take_one_broadcast, UserBroadcasts::take_broadcasts_measured"]}
{"id": "C20", "title": "Queue drains serve least-transmitted messages first and never starve", "statement": "Within a drain no message is handed out twice, a message that fits is never skipped in favour of one that has been transmitted more often, and a drain with room for some queued message returns at least one message.", "quantifier": "every queue content and budget", "why_tests_cant": "All combinations of transmit counts and sizes.", "anchors": ["memberlist-proto/src/broadcast/mod.rs: take_broadcasts_measured"]}
{"id": "C21", "title": "User broadcast ranks are strict priorities", "statement": "User broadcasts of a higher rank consume the shared byte budget before any lower rank, an out-of-range rank is treated as the lowest rank and never lost, and the combined drain never exceeds the budget.", "quantifier": "every queue content, rank and budget", "why_tests_cant": "All combinations across tiers.", "anchors": ["memberlist-proto/src/broadcast/mod.rs: UserBroadcasts::{queue_ranked,take_broadcasts_measured,reset}"]}
{"id": "C22", "title": "Suspicion deadline bounds", "statement": "A suspicion never expires earlier than its minimum nor later than its maximum after it started (when confirmed in time), each new confirmer can only bring the deadline forward, the original accuser and repeat confirmers have no effect, and no more than the expected number of confirmations are counted.", "quantifier": "every confirmation history (who, when), every k, minimum and maximum", "why_tests_cant": "All orders and timings of confirmations.", "anchors": ["memberlist-proto/src/suspicion/mod.rs: Suspicion::{new,confirm}, remaining_suspicion_time"]}
{"id": "C23", "title": "Health score stays in range", "statement": "Under any sequence of probe successes and failures the local health score stays between 0 and max-1, success never raises it, failure never lowers it, and scaled timeouts are (score+1) times the base timeout.", "quantifier": "every sequence of score updates and every multiplier", "why_tests_cant": "Unbounded histories.", "anchors": ["memberlist-proto/src/awareness/mod.rs: Awareness::{new,record_success,record_failure,scale_timeout}"]}
{"id": "C24", "title": "Reliable stream outcome does not depend on chunking", "statement": "Once the peer has closed, the outcome of a reliable exchange (phase, payloads, reports and output) depends only on the bytes received and not on how the transport splits them, as long as no deadline passes in between; an accepted or dialled exchange is worth exactly the one message its bytes spell.", "quantifier": "every stream kind, every byte stream, every chunking", "why_tests_cant": "Exponentially many chunkings of unbounded streams.", "anchors": ["memberlist-proto/src/stream/mod.rs: Stream::{handle_data,try_decode_frame,probe_frame,dispatch_message}"]}
{"id": "C25", "title": "Reliable stream ends exactly once", "statement": "A reliable exchange makes no lifecycle report while it runs, one (closed or failed) when it ends, and a second one only when bytes arrive from the peer after a completed exchange's closed report was already collected; it hands at most one protocol message to the endpoint, and after the end it transmits nothing and asks for no timer, whatever is called.", "quantifier": "every sequence of data, EOF, timeout, poll and transport-error inputs", "why_tests_cant": "All interleavings of I/O, timers and polls.", "anchors": ["memberlist-proto/src/stream/mod.rs: Stream"]}
{"id": "C26", "title": "Reliable stream deadline is authoritative", "statement": "Once the deadline has passed a reliable exchange accepts no more data and sends no more bytes: any later input or poll ends it with a timeout failure unless it had already ended.", "quantifier": "every input history and every deadline", "why_tests_cant": "All timings.", "anchors": ["memberlist-proto/src/stream/mod.rs: poll_transmit, handle_data_inner, handle_timeout"]}
{"id": "C27", "title": "Reliable stream memory is bounded", "statement": "The bytes buffered from a peer on a reliable exchange never exceed the configured maximum frame size, and a frame announcing a larger size is refused before its body arrives.", "quantifier": "every byte stream, chunking and configured maximum", "why_tests_cant": "Adversarial length prefixes and chunkings.", "anchors": ["memberlist-proto/src/stream/mod.rs: handle_data_inner, probe_frame"]}
{"id": "C28", "title": "Streaming frame detector agrees with the frame decoder", "statement": "The incremental frame detector declares a frame complete exactly when the frame decoder can decode a frame of the same extent, and declares an error only where the decoder cannot succeed within the limit.", "quantifier": "every byte string and limit", "why_tests_cant": "Two separately written parsers are compared on all inputs.", "anchors": ["memberlist-proto/src/stream/mod.rs: probe_frame", "memberlist-proto/src/framing/mod.rs: decode_plain_frame"]}
{"id": "C29", "title": "Member table invariants of a node", "statement": "At every point of every run: member ids are unique, the local node is present, the local node is alive while the node is running and is never suspected or declared dead by its own table, a member is in the suspect state exactly when it has a pending suspicion timer, and the number of members never exceeds the configured cap.", "quantifier": "every sequence of packets, stream events, API calls, timer firings and random choices", "why_tests_cant": "Invariant over all reachable states of the whole node.", "anchors": ["memberlist-proto/src/endpoint/mod.rs: Endpoint", "memberlist-proto/src/members/mod.rs"]}
{"id": "C30", "title": "Membership events replay to the live set", "statement": "Replaying the NodeJoined, NodeUpdated and NodeLeft events a node has emitted, from the start, always yields exactly the members the node currently considers alive or suspected, with their current metadata and address; a node is never reported joined twice without leaving in between and never reported left when it was not joined.", "quantifier": "every run, at every point", "why_tests_cant": "It relates the whole event history to the current table.", "anchors": ["memberlist-proto/src/endpoint/mod.rs: process_alive_decided, process_suspect, process_dead, update_meta, reset_nodes, emit_event"]}
{"id": "C31", "title": "Incarnation numbers order claims", "statement": "The incarnation recorded for a remote member never decreases, and its address never changes, while that membership generation lasts; a new generation starts only when a claim from another address takes over the id of a member that left or was dead beyond the reclaim time (or that the same push/pull reports gone). A Suspect or Dead claim below the recorded incarnation, or an Alive claim from the recorded address below it (for a remote member: not above it), changes nothing: no state, no event, no re-broadcast.", "quantifier": "every run and every claim", "why_tests_cant": "All orders of delivery of all claims.", "anchors": ["memberlist-proto/src/endpoint/mod.rs: process_alive_decided, process_suspect, process_dead"]}
{"id": "C32", "title": "Dead members are revived only by newer claims", "statement": "A member in the dead or left state becomes alive again only through an Alive claim with a strictly higher incarnation or, for a different address, under the reclaim rule; suspect and dead claims never revive it.", "quantifier": "every run", "why_tests_cant": "All histories.", "anchors": ["memberlist-proto/src/endpoint/mod.rs: process_alive_decided, process_dead, process_suspect, merge_state"]}
{"id": "C33", "title": "Self-defence: false accusations are refuted", "statement": "If a running node receives a suspect or dead claim about itself whose incarnation is at least its own, it stays alive, raises its incarnation strictly above the accusation (short of u32 wrap-around) and queues an Alive broadcast with the new incarnation. (The incarnation is a wrapping u32: an accusation at the maximum value cannot be outbid and wraps the incarnation to 0.)", "quantifier": "every reachable running state and accusation", "why_tests_cant": "All accusation values including u32 extremes and all histories.", "anchors": ["memberlist-proto/src/endpoint/mod.rs: refute, process_suspect, process_dead, skip_incarnation_past"]}
{"id": "C34", "title": "Failure is declared only after suspicion expires", "statement": "A running node marks another member dead on its own only when that member has been continuously suspected until its suspicion deadline, i.e. for at least the minimum suspicion time, without an accepted refutation; otherwise a member becomes dead or left only because a Dead claim, or a left entry of a push/pull, about it was received at an incarnation not below the recorded one. (The maximum suspicion multiplier must not be zero.)", "quantifier": "every run and schedule of timer firings", "why_tests_cant": "All timings and message orders.", "anchors": ["memberlist-proto/src/endpoint/mod.rs: fire_expired_suspicions, process_dead, process_alive_decided"]}
{"id": "C35", "title": "A node never reports itself failed or left unless it leaves", "statement": "The local node is never put into the suspect or dead state by any input; it enters the left state only through its own leave call, and after that nothing brings it back.", "quantifier": "every run", "why_tests_cant": "All inputs.", "anchors": ["memberlist-proto/src/endpoint/mod.rs: process_dead, process_suspect, leave_with"]}
{"id": "C36", "title": "Acks count only from legitimate responders", "statement": "A ping or probe completes successfully only on an ack carrying its live sequence number and arriving, before its deadline, from the probed address or from one of the relays this node asked for that probe, or on the ack of its reliable ping read from a stream before the deadline. An ack of a legitimate responder that comes too late concludes it as failed; any other ack changes nothing.", "quantifier": "every run and every ack packet", "why_tests_cant": "Adversarial acks with arbitrary source and sequence.", "anchors": ["memberlist-proto/src/endpoint/mod.rs: handle_ack, ack_source_is_valid, complete_probe_success"]}
{"id": "C37", "title": "Application pings complete exactly once", "statement": "Each ping started by the application yields at most one of PingCompleted and PingFailed over the whole run, never both, and none is left pending past its deadline once timers have been serviced.", "quantifier": "every run", "why_tests_cant": "All interleavings of acks, nacks, timeouts and leave.", "anchors": ["memberlist-proto/src/endpoint/mod.rs: ping, complete_probe_success, probe_terminate_failure, advance_probe_fsm"]}
{"id": "C38", "title": "Sequence numbers in flight are unique", "statement": "A newly issued sequence number is never zero and never equal to that of any probe, ping or relayed ping still outstanding.", "quantifier": "every run, including u32 wrap-around of the counter", "why_tests_cant": "Wrap-around with long-lived outstanding entries.", "anchors": ["memberlist-proto/src/endpoint/mod.rs: allocate_seq"]}
{"id": "C39", "title": "Relayed pings are answered exactly once", "statement": "For every accepted indirect-ping request the relay sends exactly one ping to the target and at most one answer (ack or nack, with the requester's own sequence number) to the requester, exactly one once the target answered or the deadline was serviced; the number of relays in progress never exceeds the cap and duplicates of a request in progress are not relayed twice.", "quantifier": "every run", "why_tests_cant": "All interleavings of requests, acks and timeouts.", "anchors": ["memberlist-proto/src/endpoint/mod.rs: handle_indirect_ping, handle_ack, fire_expired_forwards"]}
{"id": "C40", "title": "Nacks are counted once per asked relay", "statement": "Only relays that were asked for the probe can contribute a nack, each at most once and only before the probe's deadline, so the health penalty of a failed probe is between 0 and the number of relays asked (and 1 when none was asked).", "quantifier": "every run", "why_tests_cant": "Adversarial nacks.", "anchors": ["memberlist-proto/src/endpoint/mod.rs: handle_nack, probe_terminate_failure"]}
{"id": "C41", "title": "Timers: no missed and no spinning deadline", "statement": "The time reported by poll_timeout is the earliest pending deadline of a running node (and none exactly if nothing is pending), and after servicing timers at some instant every remaining deadline lies strictly after that instant, with one exception: a suspicion that a probe failing in this very call shortened to end now, which a second service at the same instant clears. So a driver that sleeps until poll_timeout neither misses a deadline nor spins.", "quantifier": "every reachable state and every time", "why_tests_cant": "All combinations of pending probes, suspicions, relays, dials and schedulers.", "anchors": ["memberlist-proto/src/endpoint/mod.rs: poll_timeout, handle_timeout, advance_probe_fsm"]}
{"id": "C42", "title": "Graceful leave", "statement": "After leave: the local node is recorded as left, every member alive or suspected at that moment is sent exactly one farewell carrying the Dead claim about the local node, LeftCluster is reported exactly once and only after the last farewell has been handed to the transport, calling leave again does nothing, and no later input changes membership (an explicit request to reap dead members aside) or sends anything else.", "quantifier": "every reachable running state followed by any inputs", "why_tests_cant": "All states at the moment of leaving and all later inputs.", "anchors": ["memberlist-proto/src/endpoint/mod.rs: leave_with, poll_transmit, handle_packet, handle_timeout"]}
{"id": "C43", "title": "Datagrams fit the MTU", "statement": "Every datagram the node sends (gossip rounds, probes, relayed pings, acks, nacks, application packets, farewells) can be encoded and is at most the configured gossip MTU long before label and encryption. The only exception is a relayed ack carrying a payload that another node chose and that is longer than the node would accept for itself.", "quantifier": "every history of calls and received packets, queue content, MTU and cluster size", "why_tests_cant": "All combinations of message sizes, and the compound framing overhead.", "anchors": ["memberlist-proto/src/endpoint/mod.rs: fire_gossip_scheduler, drain_user_broadcasts", "memberlist-proto/src/framing/mod.rs: encode_compound"]}
{"id": "C44", "title": "Dead members are reaped only after their grace period", "statement": "Reaping removes only members that are dead or left and have been so for longer than the gossip-to-the-dead time, never the local node and never a live member, and it keeps all others.", "quantifier": "every table, time and shuffle", "why_tests_cant": "All tables.", "anchors": ["memberlist-proto/src/endpoint/mod.rs: reset_nodes"]}
{"id": "C45", "title": "Probe scheduling is fair", "statement": "While no member is added to or removed from the member list and the application does not reset the list itself, every remote member that stays alive or suspected is probed within 2n-1 probe rounds, n being the length of the list (one pass may not be enough, because the list is shuffled after each pass); n rounds are enough when rounds are only asked for explicitly. A probe only starts in a probe round, and never of a dead, departed or the local member.", "quantifier": "every reachable state, every sequence of calls, every random choice", "why_tests_cant": "All tables, starting positions, shuffles and interleavings of other calls.", "anchors": ["memberlist-proto/src/endpoint/mod.rs: next_probe_target, fire_probe_scheduler"]}
{"id": "C46", "title": "Push/pull answers reflect the current table", "statement": "The state served to a push/pull peer lists exactly the node's members with their current state, incarnation, metadata and address and the current application snapshot, whenever it is served after the table was last changed and timers or accessors refreshed the cache.", "quantifier": "every run", "why_tests_cant": "Cache coherence across all mutations.", "anchors": ["memberlist-proto/src/endpoint/mod.rs: encode_push_pull_response, refresh_push_pull_cache, bump_snapshot_version"]}
{"id": "C47", "title": "Push/pull merge cannot kill directly", "statement": "Merging a remote state list never turns an alive member directly into dead on hearsay of dead or suspect: such entries only start a suspicion, so the accused can refute; and the merge of a list equals processing its entries one by one.", "quantifier": "every table and every remote state list", "why_tests_cant": "All remote lists.", "anchors": ["memberlist-proto/src/endpoint/mod.rs: merge_state, process_suspect, process_dead"]}
{"id": "C48", "title": "Order-independence of alive claims", "statement": "If the same set of Alive claims about a remote node (same address) is delivered in any order and with any duplication, the final recorded incarnation is the highest one and the recorded metadata is that of a highest claim.", "quantifier": "every multiset and permutation of claims", "why_tests_cant": "All permutations.", "anchors": ["memberlist-proto/src/endpoint/mod.rs: process_alive_decided"]}
{"id": "C49", "title": "Address conflicts do not hijack members", "statement": "An Alive claim for a known live member from a different address never changes that member's recorded address, incarnation or state; it only produces a conflict notification.", "quantifier": "every run and claim", "why_tests_cant": "Adversarial claims.", "anchors": ["memberlist-proto/src/endpoint/mod.rs: process_alive_decided"]}
{"id": "C50", "title": "API errors have no side effects", "statement": "When ping, update_meta, queue_user_broadcast, set_ack_payload, set_local_state_snapshot, send_user_packet(s) or starting a user message returns an error, no state changed (a refused ping may use up one sequence number) and nothing will be sent. The calls are refused exactly when the node is not running or the stated size or encoding limit is violated; otherwise they have exactly their stated effect.", "quantifier": "every state and argument", "why_tests_cant": "All error paths in all states.", "anchors": ["memberlist-proto/src/endpoint/mod.rs: ping, update_meta, queue_user_broadcast_ranked, set_ack_payload, set_local_state_snapshot, start_push_pull"]}
{"id": "C51", "title": "Stream identifiers and dial intents", "statement": "Each outbound stream id is issued once; a dial result is honoured at most once, only for an issued id, before its deadline and while running; an intent that expired or failed never produces a stream.", "quantifier": "every run", "why_tests_cant": "All interleavings of dial results and timers.", "anchors": ["memberlist-proto/src/endpoint/mod.rs: allocate_stream_id, dial_succeeded, dial_failed, fire_expired_stream_intents"]}
{"id": "C52", "title": "Pings are answered only for this node", "statement": "A node answers a ping exactly when the ping names it as the target, answers to the packet's source address with the ping's sequence number, and when restricted to members reveals its application payload only to a known member at that source address.", "quantifier": "every state and ping", "why_tests_cant": "Adversarial pings.", "anchors": ["memberlist-proto/src/endpoint/mod.rs: handle_ping"]}
{"id": "C53", "title": "Delegate vetoes are absolute", "statement": "An Alive claim that the alive filter rejects changes nothing, and a push/pull that the merge filter rejects merges nothing.", "quantifier": "every state, claim and filter", "why_tests_cant": "All filters and inputs.", "anchors": ["memberlist-proto/src/endpoint/mod.rs: process_alive, merge_admitted, handle_stream_event"]}
{"id": "C54", "title": "Probe failure blames only the probed incarnation", "statement": "When a failure-detection probe fails, the target is suspected only if the membership generation that was probed is still current and only with the incarnation recorded when the probe started, so a member that re-joined or refuted during the probe is not suspected by it.", "quantifier": "every run", "why_tests_cant": "All interleavings of probe timeouts and membership updates.", "anchors": ["memberlist-proto/src/endpoint/mod.rs: start_probe, probe_terminate_failure, process_suspect"]}
{"id": "C55", "title": "Accepted claims are passed on", "statement": "Whenever a received Alive, Suspect or Dead claim changes what a node records about another node, that same claim is queued for gossip with its full number of transmissions ahead of it, and any older queued claim about that node is withdrawn.", "quantifier": "every reachable state and every claim received as a packet", "why_tests_cant": "All states of the table and of the gossip queue.", "anchors": ["memberlist-proto/src/endpoint/mod.rs: process_alive_decided, process_suspect, process_dead", "memberlist-proto/src/broadcast/mod.rs: queue_broadcast"]}
{"id": "C56", "title": "Claims that are not stale take effect", "statement": "A running node that receives a claim about another node which is not stale applies exactly that claim: a Dead claim makes a member left if it made the claim itself and dead otherwise; a Suspect claim makes an alive member suspected with a timer at the maximum suspicion time (at the minimum if there are too few members to confirm); an Alive claim replaces the recorded data and makes the member alive; an Alive claim about an unknown node adds it. In each case the recorded incarnation and state-change time, the one event (if any) and the re-broadcast are those of the claim, and no other record changes.", "quantifier": "every reachable running state and every such claim", "why_tests_cant": "All table states and claims.", "anchors": ["memberlist-proto/src/endpoint/mod.rs: process_alive_decided, process_suspect, process_dead, suspicion_timeouts"]}
{"id": "C57", "title": "Metadata updates are announced", "statement": "Updating the metadata within its size cap on a running node raises the node's incarnation by one, changes its own record, queues the Alive claim with the new metadata and incarnation in place of any older claim about the node, and reports one update event; a refused update changes nothing.", "quantifier": "every reachable state and every metadata value", "why_tests_cant": "All states and metadata.", "anchors": ["memberlist-proto/src/endpoint/mod.rs: update_meta"]}
{"id": "C58", "title": "Probes without a direct answer are escalated", "statement": "When timers are serviced on a running node while a failure-detection probe has waited its probe timeout without a direct answer and its deadline is not over, live members other than the node and the target are asked to reach the target, each once under the probe's number: as many as configured or all there are (none if the request does not fit a datagram). Unless the application disabled reliable pings with the target, a stream to it is also requested, to send a ping with the same number before the probe's deadline; if it did, no stream is requested for the probe. If neither a relay can be asked nor a stream requested, the probe ends with the call.", "quantifier": "every reachable running state, every pending failure-detection probe, every time", "why_tests_cant": "All states, probe populations, member tables, random choices and times.", "anchors": ["memberlist-proto/src/endpoint/mod.rs: advance_probe_fsm, probe_fan_out_indirect, start_reliable_ping, disable_reliable_ping"]}
{"id": "C59", "title": "Gossip rounds", "statement": "When timers are serviced on a running node and its gossip round is due, it queues, after the datagrams of the failure detector, one datagram for each of the configured number of different members (or for all, if there are fewer) among those other than itself that are alive, suspected or dead for at most the configured time. All these datagrams carry the same messages: the waiting claims preferred by the queue's policy, as many as fit one datagram (the first claim alone if it fits no compound datagram), and then the application's broadcasts in the space left, rank by rank. What was sent counts one transmission more and is dropped once it reaches the retransmission limit for the cluster size; no other claim is lost, except in favour of a newer one about the same node. The next round is one interval later. A call before the round is due queues nothing but failure-detector datagrams.", "quantifier": "every reachable running state, every time, every random choice", "why_tests_cant": "All queue contents, member tables, random draws and times.", "anchors": ["memberlist-proto/src/endpoint/mod.rs: fire_gossip_scheduler", "memberlist-proto/src/broadcast/mod.rs: take_broadcasts_measured, take_one_broadcast"]}
{"id": "C60", "title": "Application broadcasts", "statement": "An accepted application broadcast waits with no transmission yet in the rank it was given (the last rank if the number is larger), and changes no other waiting broadcast. Apart from that only gossip rounds and leaving change what waits; leaving drops it. Application data is never made up: everything that waits to be broadcast or is in a queued datagram was passed in by the application.", "quantifier": "every reachable state, every history of calls", "why_tests_cant": "All histories, payloads and ranks.", "anchors": ["memberlist-proto/src/endpoint/mod.rs: queue_user_broadcast_ranked, drain_user_broadcasts, leave_with", "memberlist-proto/src/broadcast/mod.rs: UserBroadcasts"]}
{"id": "C61", "title": "Records are authentic", "statement": "Whatever a node records about another node was said by that node of itself: its address, metadata and versions were its own at one moment, in an incarnation not above the recorded one; if it is recorded as alive, all of the record including the incarnation was its own. The same holds for Alive messages and push/pull entries on the network. A node that was never started is recorded by nobody.", "quantifier": "every history of a cluster: any number of nodes, any interleaving of starts, crashes, restarts and API calls, any network that loses, repeats, delays, reorders or misdirects messages but does not make up membership claims", "why_tests_cant": "All cluster sizes, schedules, crash points and network behaviours.", "anchors": ["memberlist-proto/src/endpoint/mod.rs: process_alive, merge_state, handle_packet"]}
{"id": "C62", "title": "Nobody is ahead of a node itself", "statement": "A node is recorded only in incarnations it reached. If it was started once and its incarnation counter did not wrap, nobody records it in an incarnation above its current one.", "quantifier": "every history of a cluster: any number of nodes, any interleaving of starts, crashes, restarts and API calls, any network that loses, repeats, delays, reorders or misdirects messages but does not make up membership claims", "why_tests_cant": "All cluster sizes, schedules, crash points and network behaviours.", "anchors": ["memberlist-proto/src/endpoint/mod.rs: refute, process_suspect, process_dead, update_meta"]}
{"id": "C63", "title": "Nodes agree within an incarnation", "statement": "Two nodes that record a node as alive in the same incarnation record the same address, metadata and versions, and all records of it in any state have the same address, provided it was started once and its incarnation counter did not wrap. A node restarted with other metadata at the same incarnation can be recorded in two ways.", "quantifier": "every history of a cluster: any number of nodes, any interleaving of starts, crashes, restarts and API calls, any network that loses, repeats, delays, reorders or misdirects messages but does not make up membership claims", "why_tests_cant": "All cluster sizes, schedules, crash points and network behaviours.", "anchors": ["memberlist-proto/src/endpoint/mod.rs: update_meta, process_alive, try_new"]}
{"id": "C64", "title": "Only leaving is recorded as left", "statement": "A node is recorded as left in an incarnation, by anyone, only if it called leave in that incarnation; a Dead message by a node about itself is on the network only then.", "quantifier": "every history of a cluster: any number of nodes, any interleaving of starts, crashes, restarts and API calls, any network that loses, repeats, delays, reorders or misdirects messages but does not make up membership claims", "why_tests_cant": "All cluster sizes, schedules, crash points and network behaviours.", "anchors": ["memberlist-proto/src/endpoint/mod.rs: leave_with, process_dead"]}
{"id": "C65", "title": "Accusations have a cause", "statement": "A node is recorded as suspect, dead or left in an incarnation, by anyone, only if it left in that incarnation or a probe of it in that incarnation by some other node ended without an answer in time. The same holds for Suspect and Dead messages on the network. So a node that does not leave and answers all probes in time is recorded as alive by everyone who records it.", "quantifier": "every history of a cluster: any number of nodes, any interleaving of starts, crashes, restarts and API calls, any network that loses, repeats, delays, reorders or misdirects messages but does not make up membership claims", "why_tests_cant": "All cluster sizes, schedules, crash points and network behaviours.", "anchors": ["memberlist-proto/src/endpoint/mod.rs: probe_terminal_failure, process_suspect, process_dead, merge_state"]}
{"id": "C66", "title": "Delivery converges", "statement": "If no probe of a node in its current incarnation failed and it did not leave in it, then any running node that receives the current claim of that node records exactly that claim, as alive, whatever it recorded before, provided its filter accepts the claim and it knows the node or has room for it; the node was started once and its incarnation counter did not wrap.", "quantifier": "every history of a cluster: any number of nodes, any interleaving of starts, crashes, restarts and API calls, any network that loses, repeats, delays, reorders or misdirects messages but does not make up membership claims", "why_tests_cant": "All cluster sizes, schedules, crash points and network behaviours.", "anchors": ["memberlist-proto/src/endpoint/mod.rs: process_alive"]}
{"id": "C67", "title": "Reliable content is authorised", "statement": "The endpoint is given the content of a reliable exchange only after the connection of that exchange ended, and only if all the connection delivered is the cluster's label header (if it has a label) and behind it a whole number of units, each wrapped as the current settings demand (encrypted under a key of the current keyring exactly if there is one), that together carry one message which answers what the exchange was opened for. Trailing bytes, a partial unit, a wrong label, a foreign key or a second message mean that nothing is given to the endpoint.", "quantifier": "every coordinator, every history of calls (connection bytes in any chunks, errors, accepts, starts, timers, settings, polls), every hash iteration order", "why_tests_cant": "All byte streams, chunkings and interleavings with other exchanges, timers and settings changes.", "anchors": ["memberlist-proto/src/streams/mod.rs: handle_transport_data, pump_bridges, accept_connection, set_encryption_options", "memberlist-proto/src/streams/bridge.rs: pump_in_established, drain_payload_only, drain_then_reap", "memberlist-proto/src/streams/labeled/mod.rs"]}
{"id": "C68", "title": "The coordinator adds nothing to its endpoint", "statement": "The endpoint inside a coordinator is at any time an endpoint after some history of its own public calls; the coordinator changes it in no other way. So every property of every reachable endpoint holds inside a coordinator.", "quantifier": "every coordinator, every history of calls (connection bytes in any chunks, errors, accepts, starts, timers, settings, polls), every hash iteration order", "why_tests_cant": "All histories.", "anchors": ["memberlist-proto/src/streams/mod.rs"]}
{"id": "C69", "title": "One payload, one report", "statement": "A reliable exchange hands the endpoint at most one payload and at most one completion report, the payload first and nothing after the report. The report carries the id of the exchange, and comes when the coordinator holds the exchange no longer. A push/pull or reliable ping is reported as succeeded only if its answer (of that kind) was handed over before; a user message brings nothing back.", "quantifier": "every coordinator, every history of calls (connection bytes in any chunks, errors, accepts, starts, timers, settings, polls), every hash iteration order", "why_tests_cant": "All byte streams and all interleavings with errors, timers, leave and settings changes.", "anchors": ["memberlist-proto/src/streams/mod.rs: drain_then_reap, reap, handle_transport_data", "memberlist-proto/src/streams/bridge.rs", "memberlist-proto/src/stream/mod.rs"]}
{"id": "C70", "title": "No silent end of an exchange", "statement": "If the coordinator holds an exchange that the application started before a call, and does not hold it after the call, then that call reported its completion with the peer and the kind of the exchange. The only call that may drop such an exchange without a report is leave.", "quantifier": "every coordinator, every history of calls (connection bytes in any chunks, errors, accepts, starts, timers, settings, polls), every hash iteration order, every call", "why_tests_cant": "Every way an exchange can end, in every state.", "anchors": ["memberlist-proto/src/streams/mod.rs: drain_then_reap, reap, cancel_exchange, leave"]}
{"id": "C71", "title": "A node that has left stays closed", "statement": "After leave the coordinator never again asks the driver to open a connection, never accepts one, and never hands on a received datagram, even one received before leave. It takes up no new exchange: every exchange it still holds was held before leave.", "quantifier": "every coordinator, every history of calls (connection bytes in any chunks, errors, accepts, starts, timers, settings, polls), every hash iteration order, before and after leave", "why_tests_cant": "Every history before and after leave, including connects and datagrams still queued.", "anchors": ["memberlist-proto/src/streams/mod.rs: leave_with, accept_connection, poll_action, poll_memberlist_ingress"]}
{"id": "C72", "title": "Peers cannot make the node hold without bound", "statement": "At any time the coordinator holds at most max_inbound_streams exchanges opened by peers, and at most 8192 received datagrams wait to be handed on. A connection is refused only when the node has left or the limit is reached.", "quantifier": "every coordinator, every history of calls (connection bytes in any chunks, errors, accepts, starts, timers, settings, polls), every hash iteration order", "why_tests_cant": "A counter that leaks once in any interleaving of accepts, failures and completions breaks the bound or refuses peers forever.", "anchors": ["memberlist-proto/src/streams/mod.rs: accept_connection, handle_gossip, reap"]}
{"id": "C73", "title": "Every exchange ends in time, whatever the peer does", "statement": "Every reliable exchange the coordinator holds has a deadline: poll_timeout asks to be woken no later, and handle_timeout at or after it ends the exchange. In a labelled cluster an exchange a peer opened is gone at the first handle_timeout later than the accept by the accept deadline and two stream timeouts, whatever bytes the peer sends and when. Without a label the same bound counts from the first servicing call if that comes after the accept deadline (and the stronger bound is false).", "quantifier": "every coordinator, every history of calls (connection bytes in any chunks, errors, accepts, starts, timers, settings, polls), every hash iteration order, every instant of the timeout", "why_tests_cant": "A slow peer can interleave bytes, commits that renew the deadline, and other exchanges' calls in unboundedly many ways; a test tries one schedule.", "anchors": ["memberlist-proto/src/streams/mod.rs: accept_connection, handle_timeout, poll_timeout, run_tick, service_handshake_completions", "memberlist-proto/src/streams/bridge.rs: pump_out, poll_timeout, promote, commit"]}
{"id": "C74", "title": "No call makes the stream coordinator panic", "statement": "After no history of calls does an `expect` of the stream coordinator fail: a promoted exchange has a stream with a deadline, a connection is given a stream only while one is owed to it, and a half-closed exchange has a stream to commit from.", "quantifier": "every coordinator, every history of calls (connection bytes in any chunks, errors, accepts, starts, timers, settings, polls), every hash iteration order", "why_tests_cant": "The expects encode invariants between four tables (connections, descriptions, pending handshakes, dirty set) that must hold after every history.", "anchors": ["memberlist-proto/src/streams/mod.rs: service_handshake_completions, pump_bridges", "memberlist-proto/src/streams/bridge.rs: promote"]}
{"id": "C75", "title": "The driver is led through a well-formed course of each connection", "statement": "For each exchange, what poll_action and poll_transport_transmit hand out is a well-formed course of one connection: at most one Connect; no bytes and no Connect once a Shutdown, Close or Abort was handed out; at most one Shutdown, before any other teardown; and at the end a Close, or an Abort (which a change of keys may repeat once), never both. Once the coordinator no longer holds an exchange it accepted or had the driver act for, and the driver has drained both queues, the driver was told to close or abort that connection: none is leaked.", "quantifier": "every coordinator, every history of calls (connection bytes in any chunks, errors, accepts, starts, timers, settings, polls), every hash iteration order", "why_tests_cant": "Three queues are filled by nine functions and purged by five; the order in which their entries come out depends on every interleaving of calls and polls.", "anchors": ["memberlist-proto/src/streams/mod.rs: poll_action, poll_transport_transmit, maybe_emit_shutdown, reap_bridge, set_encryption_options, cancel_exchange, leave"]}
{"id": "C76", "title": "What is written to a connection is the header and one sealed unit", "statement": "The bytes handed out for an exchange continue exactly where the bytes before them ended, in the cluster-label header followed by at most one unit; that unit carries, apart from compression, exactly one message (a request an endpoint opened an exchange for, an endpoint's answer to what arrived on one, or the acknowledgement of a ping), and it is sealed under the keyring in force when they are handed out (no bytes sealed under an earlier keyring leave after a change of keys). If the connection is closed with Close and the keys were not changed since the exchange was last held, everything was written: the whole header and the whole unit, and if this node dialled the exchange the unit (its request) was sent.", "quantifier": "every coordinator, every history of calls (connection bytes in any chunks, errors, accepts, starts, timers, settings, polls), every hash iteration order", "why_tests_cant": "Requires following every byte through bridge, collection, queue purges and re-keying for every schedule; a test sees one.", "anchors": ["memberlist-proto/src/streams/bridge.rs: pump_out, reliable_unit, set_encryption_options, fail", "memberlist-proto/src/streams/mod.rs: collect_bridge_transmits, set_encryption_options, poll_transport_transmit", "memberlist-proto/src/streams/label.rs"]}
{"id": "C77", "title": "The engine neither loses nor duplicates a socket", "statement": "After any history, the sockets the embedded engine holds are exactly those it was given, each in one place only: free in the pool, listening, serving one connection, or winding down.", "quantifier": "every engine, every network stack (what each socket answers, at each moment), every set of sockets, every history of engine calls and pumps, every hash iteration order", "why_tests_cant": "A leak shows only after the particular mix of failed dials, aborts, resets and slow closes that loses a handle, and the pool is fixed for the life of the device.", "anchors": ["memberlist-embedded/src/engine/mod.rs: pump, teardown, abort_exchange, reap_closing, check_listener, ensure_listener, rebalance", "memberlist-embedded/src/reliable/mod.rs: ReliablePlane"]}
{"id": "C78", "title": "A socket serves one connection at a time", "statement": "Each socket is used by the rules: it is taken into use only when the stack says it is ready; it serves one exchange at a time and is read and written for that exchange only; nothing is written after its sending half was closed, which happens once and with nothing left to send; it is put back only after it was reset or found closed. The engine touches no socket it was not given, and where a socket is kept agrees with what it is used for.", "quantifier": "every engine, every network stack (what each socket answers, at each moment), every set of sockets, every history of engine calls and pumps, every hash iteration order", "why_tests_cant": "Bytes of one peer delivered to another exchange appear only when a handle is reused at the wrong moment of some schedule.", "anchors": ["memberlist-embedded/src/engine/mod.rs: pump, rebalance, check_listener, flush_pending_shutdowns, flush_closing", "memberlist-embedded/src/stream_io.rs: StreamIo"]}
{"id": "C79", "title": "A connection carries exactly the exchange's bytes", "statement": "What is written on an exchange's connection is at every moment a beginning of what the coordinator handed out for it, in order and without gaps, and while the connection is held the rest is queued. Its sending half is closed only if the coordinator asked for it and after everything was written; and once it asked, the half is closed or its closing is kept pending until it is. The coordinator is given exactly the pieces read from that connection, in order, and the end of the stream at most once.", "quantifier": "every engine, every network stack (what each socket answers, at each moment), every set of sockets, every history of engine calls and pumps, every hash iteration order", "why_tests_cant": "The stack may take any number of bytes at each write and the engine carries remainders over pumps; every partial-write pattern must keep the stream intact.", "anchors": ["memberlist-embedded/src/engine/mod.rs: pump_outbound_reliable, flush_closing, flush_pending_shutdowns, pump_inbound_reliable"]}
{"id": "C80", "title": "Free sockets are put to use", "statement": "After every pump that ran to its end, if any free socket is ready for reuse then a listener is up and no dial waits for a socket.", "quantifier": "every engine, every network stack (what each socket answers, at each moment), every set of sockets, every history of engine calls and pumps, every hash iteration order", "why_tests_cant": "Holds after every pump of every history, also when sockets come free in the middle of it.", "anchors": ["memberlist-embedded/src/engine/mod.rs: ensure_listener, rebalance, pump"]}
{"id": "C81", "title": "The engine obeys its address policy", "statement": "No connection from a blocked peer is accepted; connections are opened and datagrams sent only to peers that are routable and not blocked; no datagram from a blocked source reaches the coordinator.", "quantifier": "every engine, every network stack (what each socket answers, at each moment), every set of sockets, every history of engine calls and pumps, every hash iteration order", "why_tests_cant": "Each path (join, probe fallback, push/pull, relay, application send, accept, datagram) must be gated, for every address and schedule.", "anchors": ["memberlist-embedded/src/engine/mod.rs: check_listener, rebalance, drain_gossip_transmits, pump", "memberlist-embedded/src/cidr.rs"]}
{"id": "C82", "title": "Closing connections end in time and the host is woken for them", "statement": "The instant a pump returns is the first of the instants the engine waits for. After a pump that ran to its end, no socket that winds down and no connection that drains is past its deadline. The deadline of a draining connection is moved only when its bytes made progress.", "quantifier": "every engine, every network stack (what each socket answers, at each moment), every set of sockets, every history of engine calls and pumps, every hash iteration order", "why_tests_cant": "A missed wake-up or a deadline that is never checked leaks a socket only under a peer that never closes.", "anchors": ["memberlist-embedded/src/engine/mod.rs: poll_timeout, reap_closing, flush_closing, teardown"]}
{"id": "C83", "title": "A completion names the send it completes", "statement": "When the completion of a reliable send is polled, the engine tells the id that the send returned; after any other event it tells none.", "quantifier": "every engine, every network stack (what each socket answers, at each moment), every set of sockets, every history of engine calls and pumps, every hash iteration order", "why_tests_cant": "The id travels from the request for a connection to the completion, past any number of other calls, including a change of keys in between.", "anchors": ["memberlist-embedded/src/engine/mod.rs: poll_event, last_completed_send, set_encryption_options", "memberlist-embassy/src/shared/mod.rs"]}
{"id": "C84", "title": "Membership messages have an origin", "statement": "Every message the engine's endpoint is given as a packet comes from a datagram of that source, received from a peer that is not blocked, that opened under the keyring in force and parsed under the node's label; with encryption on it was sealed under a key of that keyring. The only exception is the claim the application itself injects.", "quantifier": "every engine, every network stack (what each socket answers, at each moment), every set of sockets, every history of engine calls and pumps, every hash iteration order", "why_tests_cant": "Ranges over every datagram an adversary can send and every interleaving with re-keying.", "anchors": ["memberlist-embedded/src/engine/mod.rs: pump, inject_alive", "memberlist-proto/src/streams/mod.rs: handle_gossip, poll_gossip_ingress"]}
{"id": "C85", "title": "No connection is left behind", "statement": "Every connection the engine holds is draining under a deadline, or belongs to an exchange the coordinator still holds, or its close or abort is already queued for the next pump. Conversely, an exchange that was given a connection has it until the engine was told to close or abort it.", "quantifier": "every engine, every network stack (what each socket answers, at each moment), every set of sockets, every history of engine calls and pumps, every hash iteration order", "why_tests_cant": "A connection whose exchange ended without a teardown stays for ever; it takes a rare order of calls to reach.", "anchors": ["memberlist-embedded/src/engine/mod.rs: drain_stream_actions, teardown, abort_exchange", "memberlist-proto/src/streams/mod.rs: poll_action"]}
{"id": "C86", "title": "With encryption on, nothing leaves in the clear", "statement": "If the engine is never told to turn encryption off, every datagram it sends is sealed under the primary key of a keyring it was told to use, and everything it writes on a connection is a beginning of the label header and one frame sealed so.", "quantifier": "every engine, every network stack (what each socket answers, at each moment), every set of sockets, every history of engine calls and pumps, every hash iteration order", "why_tests_cant": "Must hold for every message, schedule and re-keying; a test sees some of them.", "anchors": ["memberlist-embedded/src/engine/mod.rs: drain_gossip_transmits, pump_outbound_reliable, set_encryption_options", "memberlist-proto/src/streams/bridge.rs"]}
{"id": "C87", "title": "Every seed is asked once", "statement": "While the node is a member, the members asked to let it join, followed by the seeds still waiting, are exactly the routable seeds given to join, in order. After a pump none waits. Once the node has left no seed is asked any more.", "quantifier": "every engine, every network stack (what each socket answers, at each moment), every set of sockets, every history of engine calls and pumps, every hash iteration order", "why_tests_cant": "Seeds are queued by one call and asked by a later one, between any other calls; none may be lost or asked twice in any interleaving.", "anchors": ["memberlist-embedded/src/engine/mod.rs: join, leave, pump"]}
{"id": "C88", "title": "Every packet is sent once, under the settings in force", "statement": "The packets taken from the endpoint and the datagrams sent correspond one to one and in order: each packet for a routable, unblocked destination becomes exactly one datagram to it, compressed, checksummed and sealed by the settings in force at that pump, every other is dropped, and no nonce is drawn for two datagrams. A pump leaves no packet waiting.", "quantifier": "every engine, every network stack (what each socket answers, at each moment), every set of sockets, every history of engine calls and pumps, every hash iteration order, every compression, checksum and encryption setting", "why_tests_cant": "The settings change between pumps and packets are made by every part of the protocol; the correspondence must hold over every history.", "anchors": ["memberlist-embedded/src/engine/mod.rs: drain_gossip_transmits, pump", "memberlist-proto/src/streams/mod.rs: compress_gossip, checksum_gossip, encrypt_gossip"]}
{"id": "C89", "title": "Settings are in force from the call that gave them", "statement": "After any history, whether the node is a member, how it compresses and the keyring it seals with are those of the last accepted call (or those it was made with); a node that has left refuses settings and seeds and is unchanged by the refusal.", "quantifier": "every engine, every network stack (what each socket answers, at each moment), every set of sockets, every history of engine calls and pumps, every hash iteration order", "why_tests_cant": "No other call, no packet and no stream may alter a setting or revive a node that has left, in any history.", "anchors": ["memberlist-embedded/src/engine/mod.rs: set_compression_options, set_encryption_options, join, leave"]}
{"id": "C90", "title": "QUIC connections stay under their caps", "statement": "A node never tracks more QUIC connections than its configured maximum, counting those it dialled, those it accepted and those that are closing, and never more connections of one source that have not finished their handshake than the per-source maximum. The per-source count is exact after a servicing pass and never too low in between. A connection that arrives below both caps is accepted; one that arrives at a cap leaves no trace.", "quantifier": "every behaviour of the QUIC library (what each of its calls answers, at each moment), every configuration of the caps, every history of datagrams, dials, calls on connections and servicing passes", "why_tests_cant": "The count is kept incrementally over every order of arrivals, handshakes, closes, handle reuse and redials; a leak or an underflow shows only in some of them.", "anchors": ["memberlist-proto/src/quic/mod.rs: route_datagram_event, reject_incoming", "memberlist-proto/src/quic/conn/mod.rs: insert_accepted, get_or_dial, reap_if_drained, release_pending_inbound, reconcile_pending_inbound, pending_inbound_from"]}
{"id": "C91", "title": "Streams to a peer ride a connection to that peer", "statement": "The connection chosen for new streams to a peer is always one the node holds, to that very peer. A dial reuses an open connection, answers with a connection to the peer or fails for a reason it names, and touches no other connection; retiring a closed connection never takes away the route of the connection dialled in its place; an accepted connection becomes the route exactly if there is no open one.", "quantifier": "every behaviour of the QUIC library (what each of its calls answers, at each moment), every configuration of the caps, every history of datagrams, dials, calls on connections and servicing passes", "why_tests_cant": "Handles are reused by the library, connections close at any moment, and both sides may dial at once; the route table must be right in every interleaving.", "anchors": ["memberlist-proto/src/quic/conn/mod.rs: get_or_dial, insert_accepted, reap_if_drained"]}
{"id": "C92", "title": "Gossip and QUIC never clash on the shared socket", "statement": "A datagram is given to the gossip codec exactly if its first byte is a frame tag (1 to 15) and to the QUIC library exactly if that byte has one of the two bits every QUIC packet has; all else is dropped. Every gossip datagram a node sends, whatever its label, compression, checksum and encryption, is taken for gossip by its receiver.", "quantifier": "every datagram; every message or list of messages, label, transform configuration, nonce and behaviour of the crypto backends", "why_tests_cant": "Must hold of the first byte of every datagram any configuration can produce.", "anchors": ["memberlist-proto/src/quic/demux/mod.rs: classify", "memberlist-proto/src/quic/mod.rs: handle_udp", "memberlist-proto/src/codec/mod.rs: encode_outgoing, encode_outgoing_compound"]}
{"id": "C93", "title": "A genuine timer is told apart from an anchor", "statement": "After any sequence of set and remove operations on the QUIC timer index, the earliest deadline apart from two given keys is exactly the minimum over all other keys, and none exactly if there are none.", "quantifier": "every sequence of operations on the index, every pair of keys", "why_tests_cant": "All histories of updates, with equal deadlines and any iteration order.", "anchors": ["memberlist-proto/src/quic/deadline/mod.rs: set, earliest, earliest_excluding_2"]}
{"id": "C94", "title": "Gossip datagrams of the QUIC node are bounded and handed out in order", "statement": "The QUIC node never keeps more than 8192 received gossip datagrams, nor more than 1024 of one source. A datagram that arrives within both limits is kept, one beyond them is dropped and only counted. The kept ones are handed to the application first, in order and each once, unless the keyring is changed.", "quantifier": "every sound behaviour of the QUIC library (only a closed connection is drained, a closed one opens no stream, only events and timeouts drain), every configuration, every history of calls of the node's interface, every hash iteration order, every datagram", "why_tests_cant": "The per-source counts are kept incrementally over every order of arrivals, polls and key changes.", "anchors": ["memberlist-proto/src/quic/mod.rs: handle_udp, push_memberlist_ingress, poll_memberlist_ingress, set_encryption_options"]}
{"id": "C95", "title": "The user message backlog of the QUIC node is exact", "statement": "`can_admit_user_dials(peer, n)` answers exactly whether the user messages that wait for the peer and n more are within the limit. `start_user_message` is refused for a full backlog exactly if the limit is reached, and the refusal changes nothing. The application's own waiting messages to one peer never exceed the limit.", "quantifier": "every sound behaviour of the QUIC library (only a closed connection is drained, a closed one opens no stream, only events and timeouts drain), every configuration, every history of calls of the node's interface, every hash iteration order, every peer and count", "why_tests_cant": "The backlog is counted at a dozen places where a dial is parked, retried, expired, minted or purged; the counts must balance over every history.", "anchors": ["memberlist-proto/src/quic/mod.rs: can_admit_user_dials, note_user_dial_enqueued, note_user_dial_dequeued, start_user_message, process_dial_entry, repark_blocked_dial"]}
{"id": "C96", "title": "A QUIC exchange is never lost and never reported twice", "statement": "Every push/pull and every admitted user message is, at every later moment, under way to its peer or reported with its id, peer and kind; a reliable ping started while the node runs may instead have failed to be dialled, of which the endpoint was told. No exchange is reported twice, and after its report nothing of it is left.", "quantifier": "every sound behaviour of the QUIC library (only a closed connection is drained, a closed one opens no stream, only events and timeouts drain), every configuration, every history of calls of the node's interface, every hash iteration order, every exchange", "why_tests_cant": "Exchanges move between queues, parking, connections that close and streams that fail in any order; an exchange dropped in one interleaving is one the caller waits on for ever.", "anchors": ["memberlist-proto/src/quic/mod.rs: start_push_pull, start_reliable_ping, start_user_message, process_dial_entry, retire_dial, emit_exchange_completed, reap_bridge, fail_bridges_for_lost_connection"]}
{"id": "C97", "title": "The QUIC node does not panic on its own books", "statement": "Wherever the QUIC node takes an entry that its own tables say exists (slots of the per-connection bridge lists, peers of started exchanges), the entry exists.", "quantifier": "every sound behaviour of the QUIC library (only a closed connection is drained, a closed one opens no stream, only events and timeouts drain), every configuration, every history of calls of the node's interface, every hash iteration order", "why_tests_cant": "The tables are updated together at many places; every order of opening, closing and reaping must keep them in step.", "anchors": ["memberlist-proto/src/quic/mod.rs: emit_exchange_completed, index_bridge_mint, unindex_bridge, reap_bridge"]}
{"id": "C98", "title": "Streams of the QUIC node stay under their caps", "statement": "The node never holds more exchanges opened by peers than its configured maximum, and never runs more than 256 push/pulls and user messages of its own over one connection.", "quantifier": "every sound behaviour of the QUIC library (only a closed connection is drained, a closed one opens no stream, only events and timeouts drain), every configuration, every history of calls of the node's interface, every hash iteration order", "why_tests_cant": "Slots are taken and given back over every order of opens, failures, lost connections and reaps.", "anchors": ["memberlist-proto/src/quic/mod.rs: process_dial_entry, accept loop of service_connection, reap_bridge, inbound_bridge_count"]}
{"id": "C99", "title": "A QUIC exchange runs over a connection to its own peer", "statement": "An exchange that runs over a stream runs over a stream of a connection the node holds, to the exchange's own peer, and what arrives on a stream reaches only the exchange that runs over it.", "quantifier": "every sound behaviour of the QUIC library (only a closed connection is drained, a closed one opens no stream, only events and timeouts drain), every configuration, every history of calls of the node's interface, every hash iteration order", "why_tests_cant": "Connection handles and stream ids are reused; the tables must never lead to a foreign exchange in any history.", "anchors": ["memberlist-proto/src/quic/mod.rs: process_dial_entry, index_bridge_mint, bridge_by_conn_sid, reap_bridge"]}
{"id": "C100", "title": "Leaving ends every waiting dial of the QUIC node", "statement": "After `leave` no dial waits. For each one that waited the endpoint was told that it failed, and each push/pull and user message of the application among them was reported as failed. Exchanges that run over streams are left alone.", "quantifier": "every sound behaviour of the QUIC library (only a closed connection is drained, a closed one opens no stream, only events and timeouts drain), every configuration, every history of calls of the node's interface, every hash iteration order", "why_tests_cant": "Dials wait in two queues in any state and any number when the node leaves.", "anchors": ["memberlist-proto/src/quic/mod.rs: leave_with, purge_reliable_dials, purge_dial_entry"]}
{"id": "C101", "title": "One payload, one report over QUIC", "statement": "A reliable exchange over QUIC hands the endpoint at most one payload and at most one completion report, the payload first and nothing after the report. The report carries the id of the exchange and comes when no stream carries the exchange any longer. A push/pull or reliable ping is reported as succeeded only if its answer (of that kind) was handed over before; a user message brings nothing back.", "quantifier": "every sound behaviour of the QUIC library (only a closed connection is drained, a closed one opens no stream, only events and timeouts drain), every configuration, every history of calls of the node's interface, every hash iteration order", "why_tests_cant": "All byte streams in any chunks, and all interleavings with resets, lost connections, timers and leave.", "anchors": ["memberlist-proto/src/quic/bridge/mod.rs: pump_in, pump_out, drain_then_reap, drain_payload_only, fail", "memberlist-proto/src/quic/mod.rs: reap_bridge, emit_exchange_completed, retire_failed_dial", "memberlist-proto/src/stream/mod.rs"]}
{"id": "C102", "title": "A QUIC node adds nothing to its endpoint", "statement": "The membership endpoint inside a QUIC node is, after every history, exactly what the calls the node made on it lead to from its first state: the node changes it in no other way. So all that holds of every endpoint after every history holds over QUIC.", "quantifier": "every sound behaviour of the QUIC library (only a closed connection is drained, a closed one opens no stream, only events and timeouts drain), every configuration, every history of calls of the node's interface, every hash iteration order", "why_tests_cant": "The node touches its endpoint from some twenty places; a test sees the states of one run.", "anchors": ["memberlist-proto/src/quic/mod.rs"]}
{"id": "C103", "title": "Reliable content over QUIC is authorised", "statement": "A reliable payload reaches the endpoint only after the peer ended its half of the QUIC stream of that exchange, and only if all that was read until then is the cluster's label header (if it has one) followed by whole units that together carry one message which answers what the exchange was opened for. (Provided QUIC hands out no bytes of a stream it was told to stop.)", "quantifier": "every sound behaviour of the QUIC library (only a closed connection is drained, a closed one opens no stream, only events and timeouts drain), every configuration, every history of calls of the node's interface, every hash iteration order, all bytes in any chunks", "why_tests_cant": "All byte streams, cut anywhere, with truncation, trailing bytes, resets, timeouts and lost connections at any point.", "anchors": ["memberlist-proto/src/quic/bridge/mod.rs: pump_in, drain_then_reap, drain_payload_only, fail, fail_with_retire"]}
{"id": "C104", "title": "What is written to a QUIC stream", "statement": "What the node hands to QUIC on the stream of an exchange is always a prefix of the cluster's label header followed by at most one unit. On a stream the node opened the unit is its request, compressed as configured. The node ends its half only after all of that was taken by QUIC, a request included. On a stream a peer opened it writes nothing, not even its label, before the peer's label header was read and accepted.", "quantifier": "every sound behaviour of the QUIC library (only a closed connection is drained, a closed one opens no stream, only events and timeouts drain), every configuration, every history of calls of the node's interface, every hash iteration order, all splits of the writes by flow control", "why_tests_cant": "QUIC may take any part of a write at any time, and streams may fail between any two of them.", "anchors": ["memberlist-proto/src/quic/bridge/mod.rs: pump_out, reliable_unit"]}
{"id": "C105", "title": "An answer over QUIC answers what that stream brought", "statement": "On a stream that a peer opened, what the node hands to QUIC is always a prefix of the cluster's label header followed by at most one unit, and that unit is either the push/pull which the node's endpoint handed out when it was given what this very stream brought, or the acknowledgement, with the same sequence number, of a ping for this node that was read from this stream. No answer goes to another exchange, and nothing else is ever sent back.", "quantifier": "every sound behaviour of the QUIC library, every configuration, every history of calls of the node's interface, every hash iteration order, all splits of reads and writes, any number of concurrent exchanges", "why_tests_cant": "Any number of exchanges may be answered concurrently, and streams may be cut, split or reset between any two of their bytes.", "anchors": ["memberlist-proto/src/quic/bridge/mod.rs: drain_payload_only, pump_out, reliable_unit", "memberlist-proto/src/stream/mod.rs: dispatch_message", "memberlist-proto/src/endpoint/mod.rs: stream_load_response"]}
{"id": "C106", "title": "A QUIC node asks to be woken in time, and not for nothing", "statement": "The time that poll_timeout of a QUIC node answers is never later than any time at which the node has something to do: when its membership endpoint has a timer due, when a reliable exchange in progress runs out, when a waiting dial is to be tried again or given up (at the latest its deadline), when a QUIC connection's own timer fires, the instant last passed in if a dial was never tried or connection events are unread, and the catch-up time if earlier calls left work over because of their budgets. Work left over always has such a catch-up time, and an exchange that waits for its turn is part of it. Conversely the answer is always one of these times (unless an exchange waits for its turn). A flush leaves nothing over.", "quantifier": "every sound behaviour of the QUIC library, every configuration, every history of calls of the node's interface, every hash iteration order, any number of connections, exchanges and dials", "why_tests_cant": "The deadline index is updated at dozens of places, by every call that touches a connection, a stream or a dial; one missed update on one interleaving stalls an exchange forever.", "anchors": ["memberlist-proto/src/quic/mod.rs: poll_timeout, refresh_immediate_due, reconcile_catchup_anchor, finalize_tick, service_slot_freed_peers, service_peer_bucket", "memberlist-proto/src/quic/bridge/mod.rs: poll_timeout", "memberlist-proto/src/endpoint/deadline/mod.rs"]}
{"id": "C107", "title": "Over QUIC no exchange and no dial outlives its deadline", "statement": "If a QUIC node is woken at a time at which an unfinished reliable exchange (other than one that already waits for its turn) or a waiting dial has run out, then after that call no exchange remains whose deadline is over and no dial waits whose deadline is over, whatever else the call did: accepted, opened, received or answered. A flush ends every exchange whose deadline is over, from any state. With C106 (the node asks to be woken no later than those deadlines) this bounds the life of every exchange and dial.", "quantifier": "every sound behaviour of the QUIC library, every configuration with a positive stream timeout, every history of calls of the node's interface, every wake-up time, any number of connections, exchanges and dials", "why_tests_cant": "Deadlines are checked in the pump of one stream and in the attempt of one dial, while a tick opens, accepts, fails, answers and reparks; an overdue one can hide in any of the queues, and a peer that goes silent at a chosen moment decides in which.", "anchors": ["memberlist-proto/src/quic/mod.rs: handle_timeout, run_tick, flush_outbound, process_dial_entry, repark_blocked_dial", "memberlist-proto/src/quic/bridge/mod.rs: pump_out", "memberlist-proto/src/stream/mod.rs: poll_transmit"]}
{"id": "C108", "title": "Over TLS nothing overtakes, nothing is cut and nothing is lost on the way to and from rustls", "statement": "Whatever calls are made on the TLS layer of a reliable connection, in any order: plaintext accepted for sending is handed to rustls in the order it was accepted and never before the handshake is over; the close of this side is passed on only when nothing accepted is still waiting; a unit is accepted whole or not at all, and what waits never exceeds the limit that follows from the configured frame size; once the handshake is over one drain leaves nothing waiting and passes on a close that was asked for. Each delivery of ciphertext reaches rustls in order and without gaps: all of it is disposed of when the layer says done, and exactly the reported number of bytes when it reports back-pressure.", "quantifier": "every rustls behaviour that keeps the contracts of Read and Write, every sequence of calls, every chunking of plaintext and ciphertext, every frame size", "why_tests_cant": "It must hold for every interleaving of handshake, writes, drains, closes and partial acceptances by rustls; tests run one rustls with a few chunkings.", "anchors": ["memberlist-proto/src/tls/records/mod.rs: TlsRecords::handle_transport_data, flush_pending, flush_close, poll_transport_transmit, write_plaintext, send_close_notify, clear_outbound", "memberlist-proto/src/tls/mod.rs: Records for TlsRecords"]}
{"id": "C109", "title": "Over TLS nothing takes effect before the peer closed its side, and only a whole message of this cluster does", "statement": "However ciphertext is cut into deliveries, whatever rustls makes of it and in whatever order timers, drains, settings and failures come: the endpoint is given the content of a reliable exchange over TLS only after the peer ended its side (by the TLS close or the end of the connection), and only if the plaintext that came out of TLS is the label header of this cluster (if it has one) followed by a whole number of well-formed units that carry one message, and that message answers what the exchange was opened for.", "quantifier": "every rustls behaviour that keeps the contracts of Read and Write, every label of a valid length, dialled and accepted exchanges, every sequence of calls on the exchange, every chunking", "why_tests_cant": "It ranges over every interleaving of handshake, back-pressure, replay of retained ciphertext, closes and failures; a test follows one.", "anchors": ["memberlist-proto/src/streams/bridge.rs: Bridge::intake_handshaking, promote, pump_in_established, replay_pending, handle_transport_data, drain_payload_only, drain_then_reap", "memberlist-proto/src/streams/labeled/mod.rs: Labeled::handle_transport_data, read_plaintext", "memberlist-proto/src/tls/records/mod.rs: TlsRecords"]}
{"id": "C110", "title": "Over TLS an exchange says its header and one whole unit, once, and closes only after that", "statement": "Whatever happens on a reliable exchange over TLS, as long as it has not failed: what it has given to rustls followed by what still waits is nothing, the label header of the cluster, or the header followed by exactly one whole unit, which carries, apart from compression, the request the exchange was opened for, an endpoint's answer to what was reported from this exchange, or the acknowledgement of a ping; nothing of it is dropped, repeated or reordered. It closes its side of TLS only when everything it had to say was given to rustls; an exchange that this node opened closes only after its request was given to rustls whole. (A failed exchange is excepted: the length of a unit that does not fit can reach rustls without the unit.)", "quantifier": "every rustls behaviour that keeps the contracts of Read and Write, every label of a valid length, dialled and accepted exchanges, every sequence of calls on the exchange, every chunking and every partial acceptance by rustls", "why_tests_cant": "It ranges over every interleaving of handshake, label exchange, partial acceptance, drains, timers, settings and failures; a test follows one.", "anchors": ["memberlist-proto/src/streams/bridge.rs: Bridge::pump_out, drain_payload_only, drain_then_reap, fail_with_retire, retire_halves", "memberlist-proto/src/streams/labeled/mod.rs: Labeled::flush_label", "memberlist-proto/src/tls/records/mod.rs: TlsRecords::write_plaintext, flush_pending, flush_close, send_close_notify, clear_outbound"]}
{"id": "C111", "title": "Ciphertext reaches TLS in the order it arrived, and none is lost", "statement": "On a reliable exchange over TLS, the ciphertext that reaches rustls is always a beginning of the ciphertext delivered for the exchange: nothing is skipped, repeated or reordered, however the bytes are cut into deliveries, whenever rustls refuses more for lack of room, and whatever else happens in between. As long as the exchange has not ended, what has not reached rustls yet is retained, and once a stream is installed everything that was delivered has reached rustls.", "quantifier": "every rustls that refuses ciphertext only for lack of room for plaintext, every new exchange whose handshake has yet to be made, every history of coordinator calls in which no ciphertext is delivered between the end of the handshake and the installation of the stream (which the coordinator does in the same call)", "why_tests_cant": "Depends on where back-pressure falls relative to record, label and handshake boundaries, in every cutting of the byte stream.", "anchors": ["memberlist-proto/src/streams/bridge.rs: intake_handshaking, handle_transport_data, pump_in_established, replay_pending", "memberlist-proto/src/tls/records/mod.rs: handle_transport_data", "memberlist-proto/src/streams/labeled/mod.rs: handle_transport_data"]}
{"id": "C112", "title": "Received bytes reach the engine of the embassy driver in order, and the end after them", "statement": "On the embassy driver, what the engine is given of a connection is always, in order, the first bytes the socket received on that same connection, never a byte of another one. As long as the socket has not been reset, a receive that finds nothing means that every byte received has been given. The end of the stream is reported only if the peer finished it on that connection, after all of its bytes, and no byte follows it.", "quantifier": "every history of one socket of the driver's pool: every sequence of the engine's calls, every schedule of the driver's task between them, and every answer of the socket", "why_tests_cant": "Depends on how the engine's synchronous calls fall between the awaits of the task that owns the socket, across reuse of the same socket.", "anchors": ["memberlist-embassy/src/worker.rs: run_slot, run_established, reset_socket", "memberlist-embassy/src/mailbox.rs: Mailbox, Command", "memberlist-embassy/src/stream_io/mod.rs: EmbassyStream"]}
{"id": "C113", "title": "Accepted bytes reach the socket of the embassy driver in order", "statement": "On the embassy driver, what the socket is given to transmit on a connection is always, in order, the first bytes accepted by the engine's send on that same connection, and a send queue of zero on a connection that has not been reset means that all of them have been given to the socket, so that closing then cuts nothing off.", "quantifier": "every history of one socket of the driver's pool: every sequence of the engine's calls, every schedule of the driver's task between them, and every answer of the socket", "why_tests_cant": "The engine may add bytes while a write is in progress, the socket may take any part of what it is offered, and the mailbox is reused.", "anchors": ["memberlist-embassy/src/worker.rs: run_slot, run_established, reset_socket", "memberlist-embassy/src/mailbox.rs: Mailbox, Command", "memberlist-embassy/src/stream_io/mod.rs: EmbassyStream"]}
{"id": "C114", "title": "The embassy driver carries out what the engine asks of a socket", "statement": "On the embassy driver, a socket ready for reuse that the engine asks to dial or to listen makes exactly that call next, with the peer or port named, and is not asleep before it; and whenever the task that owns a socket waits although it was given a command or bytes to send, or room was made for more received bytes, it has been woken.", "quantifier": "every history of one socket of the driver's pool: every sequence of the engine's calls, every schedule of the driver's task between them, and every answer of the socket", "why_tests_cant": "A missed wake shows only under one interleaving of the two tasks.", "anchors": ["memberlist-embassy/src/worker.rs: run_slot, run_established, reset_socket", "memberlist-embassy/src/mailbox.rs: Mailbox, Command", "memberlist-embassy/src/stream_io/mod.rs: EmbassyStream"]}
{"id": "C115", "title": "A reused socket of the embassy driver is clean, and its buffers are bounded", "statement": "On the embassy driver, a socket that is reported ready for reuse shows nothing of an earlier connection: not open, no peer, no end of stream, nothing to read, nothing queued, and nothing may be sent on it. Bytes waiting in either direction never exceed the capacities configured.", "quantifier": "every history of one socket of the driver's pool: every sequence of the engine's calls, every schedule of the driver's task between them, and every answer of the socket", "why_tests_cant": "Must hold after every history of connections, failures, aborts and closes on the socket.", "anchors": ["memberlist-embassy/src/worker.rs: run_slot, run_established, reset_socket", "memberlist-embassy/src/mailbox.rs: Mailbox, Command", "memberlist-embassy/src/stream_io/mod.rs: EmbassyStream"]}
{"id": "C116", "title": "An aborted socket of the embassy driver comes back", "statement": "On the embassy driver, once the engine has aborted a connection, its socket becomes ready for reuse after a few steps of the task that owns it, whatever the socket answers.", "quantifier": "every history of one socket of the driver's pool: every sequence of the engine's calls, every schedule of the driver's task between them, and every answer of the socket", "why_tests_cant": "The abort may arrive at any await of the task, together with any result of the socket.", "anchors": ["memberlist-embassy/src/worker.rs: run_slot, run_established, reset_socket", "memberlist-embassy/src/mailbox.rs: Mailbox, Command", "memberlist-embassy/src/stream_io/mod.rs: EmbassyStream"]}
{"id": "C117", "title": "A waiting call on the embassy driver gets its own answer, once", "statement": "On the embassy driver, a call to ping or send_reliable is answered exactly once, with the first outcome reported for that very ping or send after the call began: the round-trip time or a timeout for a ping, success or failure for a send, or that the driver stopped. Nothing reported for another call answers it, in whatever order the outcomes arrive.", "quantifier": "every history of pings, reliable sends, events told by the engine, polls and a stop, with any number of calls waiting at once", "why_tests_cant": "The outcomes of concurrent calls arrive in every order, and the table of waiting calls is reshuffled at every answer.", "anchors": ["memberlist-embassy/src/shared/mod.rs: Shared, drain_events, register_ping, register_send, resolve_ping, resolve_send, pop_app_event, fail_all_waiters", "memberlist-embassy/src/memberlist/mod.rs: ping, send_reliable, poll_event"]}
{"id": "C118", "title": "The embassy driver hands events to the application in order and keeps the newest", "statement": "On the embassy driver, the events an application polls, followed by those still kept for it, are events of the engine in the order the engine told them. At most 1024 are kept, always the newest. An application that never falls more than 1024 events behind misses none.", "quantifier": "every history of pings, reliable sends, events told by the engine, polls and a stop, with any number of calls waiting at once", "why_tests_cant": "Must hold for every interleaving of events and polls, over any number of events.", "anchors": ["memberlist-embassy/src/shared/mod.rs: Shared, drain_events, register_ping, register_send, resolve_ping, resolve_send, pop_app_event, fail_all_waiters", "memberlist-embassy/src/memberlist/mod.rs: ping, send_reliable, poll_event"]}
{"id": "C119", "title": "An embedded driver that sleeps until its deadline wakes in time", "statement": "On the embassy driver, the timer is never set later than the first tick of the clock at which the engine's deadline has been reached, is early by at most a tick and a microsecond, and keeps the order of deadlines however far away. On the smoltcp driver, a caller that sleeps until the instant poll returned sleeps past no deadline of the engine and past no instant at which the network stack would have something to do, and is woken at most a millisecond early; it is told to sleep without end only if neither has a deadline.", "quantifier": "every deadline, every reading and every rate of the clock, every rounding of microseconds to ticks", "why_tests_cant": "The conversions round at three places, for every rate of the clock and every instant.", "anchors": ["memberlist-embassy/src/time/mod.rs: EmbassyInstant::machine, machine_to_raw", "memberlist-embassy/src/runner.rs: pump_loop", "memberlist-smoltcp/src/addr/mod.rs: to_smoltcp_instant, from_smoltcp_instant", "memberlist-smoltcp/src/memberlist/mod.rs: poll, min_opt"]}
{"id": "C120", "title": "The reactor driver accounts for every event it hands to the application", "statement": "On the reactor driver, every event the engine told has been given to the application's hooks, is on its way, or was dropped and counted by the drop counter. An event is dropped only when its payload would exceed the budget of bytes, or when the channel is full and, if it carries application data, 1024 others already wait to be retried. The payload bytes that wait never exceed the budget, the counter never runs below zero, and it is back at zero once the application has caught up. The queues keep to their bounds.", "quantifier": "every history of steps of the driver's task, the observation task and the subscribers, in any interleaving, for every capacity and budget", "why_tests_cant": "Two tasks update the counter and the channel in parallel; every interleaving must keep the account.", "anchors": ["memberlist-reactor/src/driver/stream/mod.rs: send_observation, flush_obs_overflow", "memberlist-reactor/src/driver/quic/mod.rs: send_observation, flush_obs_overflow", "memberlist-reactor/src/observation/mod.rs: observation_task", "memberlist-driver/src/observation.rs: observation_payload_bytes", "memberlist-reactor/src/events.rs: EventStream"]}
{"id": "C121", "title": "Membership events of the reactor driver keep their order", "statement": "On the reactor driver, events of membership and control reach the application's hooks in the order the engine told them, and the event stream carries exactly those in the same order, less the ones dropped for a slow subscriber, which are counted; application data never appears there.", "quantifier": "every history of steps of the driver's task, the observation task and the subscribers, in any interleaving, for every capacity and budget", "why_tests_cant": "Must hold for every interleaving of the tasks, with queues full at any moment.", "anchors": ["memberlist-reactor/src/driver/stream/mod.rs: send_observation, flush_obs_overflow", "memberlist-reactor/src/driver/quic/mod.rs: send_observation, flush_obs_overflow", "memberlist-reactor/src/observation/mod.rs: observation_task", "memberlist-driver/src/observation.rs: observation_payload_bytes", "memberlist-reactor/src/events.rs: EventStream"]}
{"id": "C122", "title": "A command queued on the reactor driver reaches the driver", "statement": "On the reactor driver, the driver is handed exactly the commands that were accepted from handles, each once and in order. Until the driver closes the queue every command is accepted; from then on none is, and every command ever accepted has been handed over, so that it can be answered. If commands wait, the task that looked last has been woken since.", "quantifier": "every history of pushes by any number of handles, drains by any tasks, closing and wakes", "why_tests_cant": "A lost wake or a command lost at closing shows only in some interleavings.", "anchors": ["memberlist-reactor/src/shared/mod.rs: push_command, drain_commands, close_and_drain, wake_driver"]}
{"id": "C123", "title": "Waiting joins, sends and leaves on the reactor driver are answered once, with what came of them", "statement": "On the reactor driver over streams, a join that waits is answered exactly once, when the last of the exchanges it started has finished and not before, with the peers of those that succeeded, in the order they did, or as failed if none did. A reliable send is answered when the last of its exchanges has finished, with success exactly when every payload got an exchange and none failed. A leave is answered when the node has left, and so is any leave issued meanwhile. If the driver stops first, each is told that, a join with the peers reached so far. Calls that start no exchange are answered at once, and whatever is asked of a stopped driver is refused.", "quantifier": "every history of joins, sends and leaves by any number of callers, finished exchanges in any order, the leave's completion and the stop; an exchange belongs to one call and finishes once", "why_tests_cant": "The order in which the exchanges of concurrent calls finish, and where the stop falls among them, is unbounded.", "anchors": ["memberlist-reactor/src/driver/stream/mod.rs: dispatch (Join, SendReliable, Leave), account_event, PendingJoin, PendingUserSend", "memberlist-reactor/src/driver/mod.rs: join_reply", "memberlist-reactor/src/driver/quic/mod.rs: account_event"]}
{"id": "C124", "title": "On the compio driver a join or a leave waits no longer than its deadline", "statement": "A sweep of the compio driver over streams answers every waiting join whose exchanges have all finished or whose deadline has come, once each, with the peers it has reached or as failed if there are none; it answers nobody else and leaves every other join waiting. A leave whose deadline has come is answered, to everyone who waits for it, as timed out. The driver never sleeps past the deadline of a waiting join, of the leave or of the engine, and after a sweep it does not spin on those of joins and leaves.", "quantifier": "every table of waiting joins, every pending leave, every deadline of the engine, every idle interval and every instant", "why_tests_cant": "The sweep removes by moving the last entry into the gap, so that any pattern of entries to answer and to keep has to be right, at any length.", "anchors": ["memberlist-compio/src/driver/stream/mod.rs: reap_pending_joins, min_pending_join_deadline, reap_pending_leave, min_pending_leave_deadline", "memberlist-compio/src/driver/shared/mod.rs: join_reply"]}
{"id": "C125", "title": "A handle reads the membership the engine holds", "statement": "A driver can always build the snapshot its handles read. Whenever it has come by to republish, the published snapshot holds every member once, found by its id with its current liveness, address and metadata, and nothing else; its alive count is the number of members it lists as alive, its member count is the number of members, its health score is the current one, and its local node has the configured id and address and is listed with the same metadata and versions. This holds although the driver rebuilds the snapshot only if the engine's version number has changed.", "quantifier": "every configuration, every history of calls of the engine and every placing of republications among them", "why_tests_cant": "A change of the membership or of the health that leaves the version as it was would be hidden from handles until some other change; every path through the engine has to be excluded.", "anchors": ["memberlist-reactor/src/snapshot.rs: snapshot_of", "memberlist-compio/src/driver/stream/mod.rs: refresh_snapshot, refresh_snapshot_if_changed", "memberlist-driver/src/snapshot/mod.rs: MemberlistSnapshot::by_id, online_members", "memberlist-proto/src/endpoint/mod.rs: snapshot_version, bump_snapshot_version"]}
