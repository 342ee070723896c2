{"id": "C01", "title": "A stored value is what get returns", "statement": "After a set/add/replace/cas/append/prepend/incr/decr/touch on a key answers STORED/TOUCHED, a get of that key returns exactly the data, flag and version that the command left in the entry, as long as the clock has not reached the entry's expiry and no later command succeeded in changing that key, whatever commands ran on other keys in between.", "quantifier": "for every store content, every entry, every behaviour flag combination, every later sequence of commands on other keys and every clock value before the expiry", "why_tests_cant": "the claim quantifies over unbounded command histories and all contents; a test covers one history", "anchors": ["src/lib/storage_tch.cc: storage_tch::set, storage_tch::incr, storage_tch::get, storage_tch::remove"]}
{"id": "C02", "title": "Commands on one key never change another key", "statement": "Whatever storage command is issued for key k, the record (value, flag, expiry, version) of every other key is unchanged; only flush_all affects other keys.", "quantifier": "for every store, every command with every argument, every pair of different keys", "why_tests_cant": "needs all pairs of keys and all commands, including the implicit deletes performed by reads of expired keys", "anchors": ["src/lib/storage_tch.cc: set, incr, get, remove, truncate", "src/lib/storage.cc: storage::_set_header_cache"]}
{"id": "C03", "title": "Versions grow with every client write", "statement": "Every successful write issued without an explicit version (set, add, replace, append, prepend, incr, decr) leaves the key with a version strictly larger than the version it had, and cas leaves exactly the presented version plus one; over a whole history of such client commands (including deletes and expiries) the version of a key never goes back as long as its deletion record has not been dropped from the bounded deletion cache and the 64-bit counter has not wrapped.", "quantifier": "for every history of commands from the empty store, every key, every cache size", "why_tests_cant": "monotonicity over unbounded histories and over cache evictions; wrap-around at 2^64 is never reached in tests", "anchors": ["src/lib/storage_tch.cc: set, incr, remove, _get_header", "src/lib/storage.h: _get_header_cache", "src/lib/storage.cc: _set_header_cache"]}
{"id": "C04", "title": "Compare-and-swap stores only against the version presented", "statement": "cas answers STORED only if the key is present and unexpired (or its deletion hold is still running) with exactly the presented version, EXISTS if the version differs, NOT_FOUND if the key is absent or expired; when it does not answer STORED the store is unchanged; of any number of cas commands presenting the same version with no other successful write in between, at most one answers STORED.", "quantifier": "for every store, every entry, every clock, every sequence of cas commands with the same token", "why_tests_cant": "mutual exclusion of an arbitrary number of competing writers cannot be exhausted by tests", "anchors": ["src/lib/storage_tch.cc: storage_tch::set (behavior_cas)", "src/lib/op_cas.cc"]}
{"id": "C05", "title": "Expired data is never visible", "statement": "If an entry's expiry is non-zero and not later than the current time, then get, gets, incr, decr, touch, append, prepend, replace and cas all treat the key as absent, add treats it as absent, and delete answers NOT_FOUND.", "quantifier": "for every store, every command, every clock value", "why_tests_cant": "the boundary (expiry == now) and all command/clock combinations must be covered", "anchors": ["src/lib/storage_tch.cc: set, incr, get, remove", "src/lib/util.cc: util::realtime"]}
{"id": "C06", "title": "Conditional writes act exactly when their condition holds and otherwise change nothing", "statement": "add stores only if the key is absent or expired and no deletion hold is running; replace, append and prepend store only if the key is present and unexpired; touch answers TOUCHED only for a present unexpired key; in every refused case the answer is the documented one (NOT_STORED, or NOT_FOUND for touch) and the visible contents of the store are unchanged.", "quantifier": "for every store, entry, clock and flag combination", "why_tests_cant": "requires the full decision table over all stored states", "anchors": ["src/lib/storage_tch.cc: storage_tch::set", "src/lib/op_add.cc", "src/lib/op_replace.cc", "src/lib/op_append.cc", "src/lib/op_prepend.cc", "src/lib/op_touch.cc"]}
{"id": "C07", "title": "incr and decr are saturating 64-bit arithmetic on the decimal value", "statement": "incr by v of a key holding the decimal number n stores and reports min(n+v, 2^64-1); decr reports max(n-v, 0); the flag and expiry are kept; the stored text is the decimal form of the reported number, so a later incr/decr continues from it.", "quantifier": "for every n and v below 2^64, every flag, expiry, version", "why_tests_cant": "2^128 operand pairs; overflow corners are found only by proof", "anchors": ["src/lib/storage_tch.cc: storage_tch::incr"]}
{"id": "C08", "title": "Delete removes exactly what it says", "statement": "delete answers DELETED only if the key was present and unexpired (and, when a version is given, the stored version is not newer than the given one); afterwards the key is absent; a delete whose version is older than the stored one leaves the record untouched and answers NOT_FOUND.", "quantifier": "for every store, key, version and clock", "why_tests_cant": "all version/clock relations", "anchors": ["src/lib/storage_tch.cc: storage_tch::remove", "src/lib/op_delete.cc"]}
{"id": "C09", "title": "A deletion hold blocks add and replace until it runs out", "statement": "After `delete key t` answered DELETED with hold time t in the future, add, replace, append, prepend and touch of that key are refused at every clock value before t, and add succeeds again once the clock reaches t, as long as the deletion record stays in the bounded cache and no set re-created the key.", "quantifier": "for every store, key, hold time, clock and every sequence of commands on other keys that does not evict the record", "why_tests_cant": "depends on arbitrary later histories and eviction", "anchors": ["src/lib/storage_tch.cc: storage_tch::remove, set", "src/lib/storage.cc: _set_header_cache"]}
{"id": "C10", "title": "A stale replicated write never overwrites newer data", "statement": "A set carrying an explicit version (as replication sends) is refused with NOT_STORED when the key is present, unexpired and has the same or a newer version; a set coming from a dump is refused additionally when the key was deleted at the same or a newer version and the deletion record is still cached.", "quantifier": "for every store, entry, version and clock", "why_tests_cant": "races between dump and replication produce arbitrary version orders", "anchors": ["src/lib/storage_tch.cc: storage_tch::set (version handling, behavior_dump)", "src/lib/op_dump.cc: op_dump::_parse_text_client_parameters"]}
{"id": "C11", "title": "In-order replication makes a replica equal to its master", "statement": "If a replica starts with the same contents as the master and receives, in order, the commands the master forwards for each successful client command (set/add/replace/cas/append/prepend/incr/decr forwarded as set with the new version, delete as delete, touch as touch), then at every point where it has received everything both hold the same visible contents (data, flag, expiry, version) for every key.", "quantifier": "for every initial content, every sequence of client commands with every argument and non-decreasing clock", "why_tests_cant": "unbounded interleavings of commands; equality of whole databases", "anchors": ["src/lib/storage_tch.cc", "src/lib/queue_proxy_write.cc: _get_op", "src/lib/op_set.cc: _run_client", "src/lib/op_delete.cc", "src/lib/op_touch.cc: _run_client", "src/lib/cluster.cc: post_proxy_write"]}
{"id": "C12", "title": "A replica built by dump while writes go on ends equal to the master", "statement": "A new replica that loads the master's records one by one through dump, while every client write on the master is also forwarded to it, holds after the dump ends and the forwarded writes are applied the same live keys with the same values and versions as the master, for every interleaving of dump records and forwarded writes that respects per-key forwarding order, provided the deletion cache did not overflow.", "quantifier": "for every initial master content, every sequence of client writes, every interleaving", "why_tests_cant": "the number of interleavings is unbounded", "anchors": ["src/lib/op_dump.cc", "src/lib/handler_reconstruction.cc", "src/lib/storage_tch.cc: set (behavior_dump)"]}
{"id": "C13", "title": "flush_all leaves nothing behind", "statement": "After flush_all every key is absent, add of any key succeeds, and the next write of any key starts again at version 1.", "quantifier": "for every store", "why_tests_cant": "covers every prior history", "anchors": ["src/lib/storage_tch.cc: storage_tch::truncate", "src/lib/op_flush_all.cc"]}
{"id": "C14", "title": "Reading an expired key never destroys a newer value", "statement": "A read that finds an expired record releases its lock before deleting it; if, in between, any other commands replaced the record by one with another version, the delayed deletion leaves the replacement untouched.", "quantifier": "for every store, every key, every sequence of commands executed between the read and its delayed deletion", "why_tests_cant": "a race window; tests cannot enumerate schedules", "anchors": ["src/lib/storage_tch.cc: storage_tch::get, incr, remove (behavior_version_equal)"]}
{"id": "C15", "title": "Storage locking never deadlocks and serialises writers of a key", "statement": "Every storage command takes the store-wide lock before any slot lock, takes slots in increasing order, takes no lock it already holds, and releases everything it took on every exit path, so any set of concurrently running commands can always make progress and two writers of the same key never run at the same time.", "quantifier": "for every number of threads, every assignment of commands and every schedule", "why_tests_cant": "deadlock freedom is a property of all schedules", "anchors": ["src/lib/storage_tch.cc", "src/lib/storage_tcb.cc: storage_tcb::incr", "src/lib/storage.h: _mutex_slot_wrlock_all"]}
{"id": "C16", "title": "At most one iteration over the store at a time", "statement": "Between a successful iter_begin and the matching iter_end every further iter_begin fails, and iter_next/iter_end without a running iteration fail without changing anything.", "quantifier": "for every sequence of iteration calls", "why_tests_cant": "all call histories", "anchors": ["src/lib/storage_tch.cc: iter_begin, iter_next, iter_end"]}
{"id": "C17", "title": "Key hash values are usable as partition numbers", "statement": "For every key and every hash algorithm the hash value handed to the resolver is non-negative.", "quantifier": "for every byte string and every algorithm (for the external algorithms: for every 32-bit value they may return)", "why_tests_cant": "the one failing value in 2^32 is not hit by tests", "anchors": ["src/lib/storage.h: entry::get_key_hash_value", "src/lib/cluster.cc: _determine_partition"]}
{"id": "C18", "title": "The resolver always names an existing partition", "statement": "For every non-negative hash value and every partition count from 1 up to one less than the configured maximum, the resolver returns a number in [0, partition count).", "quantifier": "for every table size, hint, virtual size, partition count and hash", "why_tests_cant": "the table has up to 1024 x 4096 cells for every configuration", "anchors": ["src/lib/key_resolver_modular.cc: startup, resolve"]}
{"id": "C19", "title": "Adding a partition moves keys only to the new partition", "statement": "When the partition count grows from n to n+1 beyond the configured hint, every hash value either keeps its partition or moves to partition n.", "quantifier": "for every configuration, every n at or above the hint and every hash value", "why_tests_cant": "all configurations and all hash values", "anchors": ["src/lib/key_resolver_modular.cc: startup"]}
{"id": "C20", "title": "At most one serving master per partition", "statement": "In every state the index server can reach through node add/remove/role/state commands, failures and recoveries, no two nodes that are master and not down belong to the same partition.", "quantifier": "for every sequence of index-server commands and node failures, from the empty cluster", "why_tests_cant": "unbounded histories of operator commands and failures", "anchors": ["src/lib/cluster.cc: add_node, down_node, up_node, ready_node, remove_node, set_node_role, _reconstruct_node_partition"]}
{"id": "C21", "title": "Roles and partitions stay consistent", "statement": "In every reachable state every proxy node has partition -1, every master or slave has a partition number >= 0, every slave that is not active has read balance counted as zero in the routing table, and node names are unique.", "quantifier": "for every sequence of index-server commands", "why_tests_cant": "unbounded histories", "anchors": ["src/lib/cluster.cc", "src/lib/cluster.h: cluster::node"]}
{"id": "C22", "title": "Failover promotes an active slave of the same partition", "statement": "When the active master of a partition goes down and the partition has at least one active slave, exactly one node changes to master: an active slave of that partition having the largest read balance among the active slaves; when there is no active slave the down node keeps its master role and partition so the partition is not lost.", "quantifier": "for every cluster state and node", "why_tests_cant": "all cluster shapes", "anchors": ["src/lib/cluster.cc: down_node"]}
{"id": "C23", "title": "A partition with data does not disappear", "statement": "The number of partitions used for key distribution never decreases: no node failure, recovery or removal accepted by the index server makes a partition vanish or leaves a partition number without a master entry.", "quantifier": "for every sequence of index-server commands", "why_tests_cant": "histories with rare combinations (preparing slave while the master restarts)", "anchors": ["src/lib/cluster.cc: up_node, remove_node, down_node, _reconstruct_node_partition"]}
{"id": "C24", "title": "Every accepted topology change gets a new, larger map version; stale maps are ignored", "statement": "Each index-server command that changes the node map increases the map version by one; a node that holds version v > 0 ignores any node map with version below v and adopts the others, so a node never goes back to an older map whatever order the maps arrive in.", "quantifier": "for every sequence of commands and every delivery order", "why_tests_cant": "message reordering", "anchors": ["src/lib/cluster.cc: _save, reconstruct_node", "src/lib/cluster.h: _increment_node_map_version"]}
{"id": "C25", "title": "Routing table matches the node map", "statement": "Whenever the routing table is rebuilt successfully, its partitions are numbered 0..n-1 without gaps, each partition's master is the node-map master of that partition, each partition lists exactly the not-down slaves of that partition, and each node appears in the read list exactly as many times as its balance says.", "quantifier": "for every node map", "why_tests_cant": "all node maps", "anchors": ["src/lib/cluster.cc: _reconstruct_node_partition"]}
{"id": "C26", "title": "A rejected index-server command changes nothing", "statement": "If a node add/remove/role/state command is answered with an error because its precondition is not met, the node map, the routing table and the map version are as before.", "quantifier": "for every state and every command", "why_tests_cant": "all state/command pairs", "anchors": ["src/lib/cluster.cc: add_node, remove_node, set_node_role, set_node_state, up_node, ready_node"]}
{"id": "C27", "title": "Index state survives restart", "statement": "The node map, thread numbering and map version saved by the index server are read back unchanged by the next start.", "quantifier": "for every node map", "why_tests_cant": "all node maps", "anchors": ["src/lib/cluster.cc: _save, _load"]}
{"id": "C28", "title": "A crash while saving never loses the index state", "statement": "If the index server stops at any point while saving its state file, the next start reads either the old state or the new state.", "quantifier": "for every crash point and every disk failure point", "why_tests_cant": "crash points are not reachable from tests", "anchors": ["src/lib/file_coordinator.cc: _save, _load"]}
{"id": "C29", "title": "Writes are executed only at the partition's master", "statement": "A client's write is executed only at the active master of the key's partition (and copied from there): a node that is not the master forwards it to the master, a forwarded write is also executed by replicas of the partition and by the nodes of a partition in preparation the key moves to, and with no partition or no master the client gets an error.", "quantifier": "for every node map, key and request path", "why_tests_cant": "all cluster shapes", "anchors": ["src/lib/cluster.cc: pre_proxy_write, _determine_partition"]}
{"id": "C30", "title": "Reads go to a member of the key's partition", "statement": "A read is served locally or forwarded to a node that is in the read list of the key's partition; a node with zero balance is never chosen by forwarding.", "quantifier": "for every node map, key and random choice", "why_tests_cant": "all cluster shapes and random choices", "anchors": ["src/lib/cluster.cc: pre_proxy_read"]}
{"id": "C31", "title": "Forwarding cannot loop for ever", "statement": "Every forwarded write carries the list of nodes it passed; a node forwards a client write at most once per request path and replicates it only while it appears at most once in the list, so every request path is finite even if node maps disagree.", "quantifier": "for every (possibly inconsistent) set of node maps and every path", "why_tests_cant": "requires inconsistent views on several nodes", "anchors": ["src/lib/cluster.cc: pre_proxy_write, post_proxy_write", "src/lib/op_proxy_write.h"]}
{"id": "C32", "title": "Each replica gets each write exactly once", "statement": "After executing a write the master hands exactly one copy to every slave of its partition that is not down (active or preparing), plus the master in preparation of a new partition when the key belongs to it, and to nobody else.", "quantifier": "for every node map and key", "why_tests_cant": "all cluster shapes", "anchors": ["src/lib/cluster.cc: post_proxy_write"]}
{"id": "C33", "title": "Writes of one key reach a replica in order", "statement": "All forwarded writes of one key to one node use the same sender queue as long as the set of sender threads does not change, and a queue is first-in first-out, so they are sent in the order they were executed.", "quantifier": "for every key, number of sender threads and queue history", "why_tests_cant": "schedules", "anchors": ["src/lib/cluster.cc: _enqueue, _get_proxy_thread", "src/lib/thread.cc: enqueue, dequeue"]}
{"id": "C34", "title": "Dump line round trip", "statement": "The line a node sends for a record in a dump or gets answer is parsed by the receiving node back to the same key, flag, size, version and expiry.", "quantifier": "for every key without blanks, every flag, size, version, expiry", "why_tests_cant": "all 64-bit values", "anchors": ["src/lib/storage.cc: entry::response, entry::parse", "src/lib/util.h: next_word, next_digit"]}
{"id": "C35", "title": "Forwarded write round trip", "statement": "The request line a node builds to forward a write (set/add/replace/cas/append/prepend, delete, touch, incr/decr) is parsed by the receiver to the same key, flag, expiry, size, version, options and forwarding path.", "quantifier": "for every entry", "why_tests_cant": "all values, including relative/absolute expiry reinterpretation", "anchors": ["src/lib/op_set.cc: _run_client", "src/lib/op_delete.cc: _run_client", "src/lib/op_touch.cc: _run_client", "src/lib/op.cc: _get_proxy_ident, set_proxy", "src/lib/op_parser_text.cc"]}
{"id": "C36", "title": "Token scanning stays inside its buffer", "statement": "Scanning a word or a number from any request line never writes outside the caller's buffer and always leaves a terminated string.", "quantifier": "for every input line and every buffer size", "why_tests_cant": "adversarial lengths", "anchors": ["src/lib/util.h: next_word, next_digit"]}
{"id": "C37", "title": "Storage record header round trip", "statement": "The header written in front of every stored value is read back to the same flag, expiry, size and version, and a record shorter than a header is rejected.", "quantifier": "for every header value and every byte string", "why_tests_cant": "all 64-bit values", "anchors": ["src/lib/storage.cc: _serialize_header, _unserialize_header"]}
{"id": "C38", "title": "Binary protocol header round trip", "statement": "Every field set in a binary request/response header is read back by the peer unchanged whatever order they are set in, all multi-byte fields travel most significant byte first, and the header is 24 bytes.", "quantifier": "for every field value", "why_tests_cant": "all values", "anchors": ["src/lib/binary_network_mapping.h", "src/lib/binary_request_header.h", "src/lib/binary_response_header.h", "src/lib/htonll.h"]}
{"id": "C39", "title": "Binary requests are cut inside their body", "statement": "Key, value and extras taken from a binary request lie inside the received body.", "quantifier": "for every header and body", "why_tests_cant": "malformed lengths", "anchors": ["src/lib/storage.cc: entry::parse(binary)", "src/lib/op_set.cc: _parse_binary_request", "src/lib/op.cc"]}
{"id": "C40", "title": "Requests are read the same way however the network splits them", "statement": "The sequence of lines and data blocks read from a connection depends only on the bytes sent, not on how they are split into packets, and pushed back bytes are the next ones read.", "quantifier": "for every byte stream, every split and every sequence of reads", "why_tests_cant": "all segmentations", "anchors": ["src/lib/connection_tcp.cc: read, readline, readsize, _add_read_buf", "src/lib/connection_tcp.h: push_back"]}
{"id": "C41", "title": "base64 round trip", "statement": "Decoding an encoded byte string returns the original bytes.", "quantifier": "for every byte string", "why_tests_cant": "all strings", "anchors": ["src/lib/util.cc: base64_encode, base64_decode"]}
{"id": "C42", "title": "Names and numbers convert back and forth", "statement": "Casting an option, result, role, state, storage type, compression or hash name to its number and back gives the same name, different values have different names, and unknown names are rejected.", "quantifier": "for every value and every string", "why_tests_cant": "every unknown string must be rejected", "anchors": ["src/lib/storage.h: *_cast", "src/lib/cluster.h: role_cast, state_cast", "src/lib/op.h: result_cast"]}
{"id": "C43", "title": "A synchronous write waits until its queue entry has been processed", "statement": "A thread that waits for a queued request returns only after the worker finished it, and is always woken once the worker finished it (no lost wake-up), for every interleaving, assuming condition variables do not wake spuriously.", "quantifier": "for every schedule and number of references", "why_tests_cant": "schedules", "anchors": ["src/lib/thread_queue.cc: sync, sync_ref, sync_unref", "src/lib/handler_proxy.cc: run"]}
{"id": "C44", "title": "Thread ids are unique and never zero", "statement": "Active threads have pairwise different non-zero ids.", "quantifier": "for every history of thread creation and clean-up, including wrap-around of the id counter", "why_tests_cant": "counter wrap-around", "anchors": ["src/lib/thread_pool.cc: get, clean"]}
{"id": "C45", "title": "A node is declared down after exactly the configured number of consecutive failures", "statement": "The monitor asks for a node to be taken down exactly when the number of consecutive failed checks reaches the threshold, never earlier, and asks for it to be brought up only after it had been considered down and a check succeeded.", "quantifier": "for every sequence of check results, option updates and node-map changes", "why_tests_cant": "unbounded sequences", "anchors": ["src/lib/handler_monitor.cc: run, _down, _up"]}
{"id": "C46", "title": "Time arithmetic", "statement": "Adding and subtracting normalised times gives normalised times, (a+b)-b = a, and the comparison used for timeouts is the order of the represented instants.", "quantifier": "for all times", "why_tests_cant": "all values", "anchors": ["src/lib/time_util.cc"]}
{"id": "C47", "title": "A dump contains exactly the requested partition", "statement": "A dump of partition p out of n sends every live record whose key belongs to p under n, exactly once, nothing else, and ends with END only if the iteration reached the end.", "quantifier": "for every store and partition", "why_tests_cant": "all contents", "anchors": ["src/lib/op_dump.cc: _run_server"]}
{"id": "C48", "title": "A reconstruction is reported complete only if the dump was complete", "statement": "A node becomes ready/active after reconstruction only if it received the END marker of the dump.", "quantifier": "for every stream and every time of a shutdown request", "why_tests_cant": "needs a shutdown request at an arbitrary point", "anchors": ["src/lib/op_dump.cc: _parse_text_client_parameters", "src/lib/handler_reconstruction.cc: run"]}
{"id": "C49", "title": "Dump replication sends only existing records", "statement": "Every record sent to the destination cluster by the initial dump replication is a record of the store under its own key with its own value.", "quantifier": "for every store and every concurrent deletion/expiry", "why_tests_cant": "a race between iteration and deletion", "anchors": ["src/lib/handler_dump_replication.cc: run"]}
{"id": "C50", "title": "Relative and absolute expiry times", "statement": "A client expiry of 0 means never, a value up to 30 days means that many seconds from now and gives a future time, a larger value is taken as an absolute time; forwarding an already converted expiry to another node does not convert it again.", "quantifier": "for every value and clock after 1970-02", "why_tests_cant": "boundaries", "anchors": ["src/lib/util.cc: realtime", "src/lib/storage.cc: entry::parse"]}
{"id": "C51", "title": "A new partition takes an even share of slots", "statement": "Going from n to n+1 partitions at or beyond the hint, each old partition p with s slots hands over exactly (s+1)/(n+1) (rounded down) of its virtual slots to the new partition; for every n the slots of all partitions add up to the virtual size.", "quantifier": "all table sizes, hints >= 1, virtual sizes, partition counts in the table, partitions", "why_tests_cant": "the modular counting argument must hold for every table size and row; a test looks at a few rows", "anchors": ["src/lib/key_resolver_modular.cc:68-100"]}
{"id": "C53", "title": "Thread types of nodes are distinct", "statement": "In every reachable state of the index server the nodes have pairwise different thread types, none below 16 (the fixed types) and all below the counter from which the next one is taken, so no two nodes share a proxy or monitor thread group.", "quantifier": "for every sequence of index-server commands, reloads and restarts", "why_tests_cant": "unbounded histories with removals, failed saves and restarts", "anchors": ["src/lib/cluster.cc: add_node, _save, _load"]}
{"id": "C54", "title": "A new master copies from every other master, a new slave from its master", "statement": "When an accepted node map turns this node from a proxy into a master, exactly one reconstruction is started from every other active master, with the partition count including the one being prepared; when it turns it into a slave, exactly one is started, from the master of its partition.", "quantifier": "for every old map, every accepted new map and every own node name", "why_tests_cant": "all pairs of node maps", "anchors": ["src/lib/cluster.cc: reconstruct_node, _shift_node_role"]}
{"id": "C55", "title": "A value has exactly the announced size", "statement": "A store request that is accepted carries exactly as many value bytes as its line announces, these are the bytes after the line, and exactly two more bytes (the line end) are consumed; a request whose size cannot be read is refused without undefined behaviour.", "quantifier": "for every request line, every announced size and every following stream of bytes", "why_tests_cant": "sizes near the limits of the integer types, unbounded streams", "anchors": ["src/lib/op_set.cc: _parse_text_server_parameters", "src/lib/storage.cc: entry::parse", "src/lib/connection_tcp.cc: readsize"]}
{"id": "C56", "title": "The amount of incr and decr is the number the client wrote", "statement": "A number without sign in an incr or decr request is the amount used; a negative number is refused.", "quantifier": "for every key, every 64-bit amount and every option", "why_tests_cant": "2^64 amounts", "anchors": ["src/lib/op_incr.cc: _parse_text_server_parameters"]}
{"id": "C52", "title": "Node keys name nodes one to one", "statement": "Different pairs of server name and port have different node keys, and name and port taken from the key of a node are those of the node.", "quantifier": "for every server name and every port", "why_tests_cant": "all strings and all 32-bit ports; names with colons are rarely tried", "anchors": ["src/lib/cluster.h: to_node_key, from_node_key"]}
{"id": "C59", "title": "Answer lines arrive as sent", "statement": "A result and its message written by one server are read by the peer as the same result and message, and what follows the line stays on the stream.", "quantifier": "for every result, every message and every following input", "why_tests_cant": "all messages; only fixed ones occur in tests", "anchors": ["src/lib/op.cc: _send_text_result, _parse_text_response"]}
{"id": "C60", "title": "Node maps and node commands arrive as sent", "statement": "A node map sent by the index server (node sync, node add) and a request to change role or state of a node are read by the receiver as the same map, version and request, and nothing behind them is consumed.", "quantifier": "for every node map of any size, every version, name, port, role, state, partition, balance and thread type", "why_tests_cant": "maps of any size with any 32-bit numbers", "anchors": ["src/lib/op_node_sync.cc: _run_client, _run_server", "src/lib/op_node_add.cc: _parse_text_client_parameters", "src/lib/op_node_role.cc: _parse_text_server_parameters", "src/lib/op_node_state.cc: _parse_text_server_parameters", "src/lib/cluster.cc: cluster::node::parse"]}
{"id": "C61", "title": "Node and index server use the same key resolver", "statement": "The numbers that decide about the partition of a key reach a node unchanged when it starts, whatever its defaults are, so node and index server look up every key in the same table.", "quantifier": "for every partition size, hash algorithm, resolver type, hint and number of virtual slots", "why_tests_cant": "all 32-bit numbers; a wrong default goes unnoticed as long as it is equal to the configured one", "anchors": ["src/lib/op_meta.cc: _run_server, _parse_text_client_parameters", "src/lib/cluster.cc: startup_node"]}
{"id": "C57", "title": "The bandwidth limiter keeps its limit", "statement": "A dump or copy with a bandwidth limit writes, up to any moment, no more bytes than the limit allows for the time that has passed plus a tenth of a second (up to rounding), is never made slower than the limit, and all partial limits together stay within the configured one; computing the sleep never leaves the range of its integers.", "quantifier": "for every limit, every sequence of writes of any sizes, and every behaviour of the clock and of usleep", "why_tests_cant": "an unbounded sequence of writes and sleeps; rounding errors add up; clock jumps and overflows only appear for rare values", "anchors": ["src/lib/bwlimitter.cc: bwlimitter::add_bytes, sleep_for_bwlimit", "src/lib/cluster.cc: _get_reconstruction_bwlimit_for_new_partition", "src/lib/op_dump.cc: _run_server"]}
{"id": "C58", "title": "A forwarded write is executed at most once", "statement": "A client's write that a node hands to the master of the key is executed there at most once, and the answer the client gets is the answer of that execution, whatever connections break and however often the sender tries again.", "quantifier": "for every command, every store, every sequence of lost connections and answers, and everything other clients do in between", "why_tests_cant": "needs an answer that is lost after the execution; tests run over connections that do not break", "anchors": ["src/lib/queue_proxy_write.cc: queue_proxy_write::run", "src/lib/queue_proxy_write.h: max_retry", "src/lib/storage_tch.cc: set, incr, remove"]}
{"id": "C62", "title": "A write handed to another node is the write the client sent", "statement": "A write that a node hands to the master of its key (or, in mode forward of the cluster replication, to another cluster) has there exactly the effect and the answer it would have had if the first node had executed it itself; a copy for another cluster reaches the master of the key there.", "quantifier": "for every command, entry, option, path, store, time, and for every byte sequence a client can send", "why_tests_cant": "the request is parsed, queued, printed and parsed again; all combinations of command, protocol, version, amount and role of the receiver", "anchors": ["src/lib/cluster.cc: pre_proxy_write", "src/lib/queue_proxy_write.cc: _get_op", "src/lib/cluster_replication.cc: on_pre_proxy_write, on_post_proxy_write", "src/lib/op_set.cc: _parse_binary_request, _run_client", "src/lib/op_incr.cc: _run_client", "src/lib/op_touch.cc: _run_client", "src/lib/op_delete.cc: _run_client"]}
{"id": "C63", "title": "A write handed on gets its own answer", "statement": "On a connection over which a node hands on the writes of many clients one after the other, the line taken for the answer to a write is the answer to that write, whatever connections break, however late answers come and whichever writes are marked noreply.", "quantifier": "for every sequence of writes, every store of the receiver, every sequence of failures, late answers and refusals", "why_tests_cant": "needs an answer that is late or an error answer to a noreply write; the damage is done to later requests of other clients", "anchors": ["src/lib/handler_proxy.cc: run, _process_queue", "src/lib/queue_proxy_write.cc: run", "src/lib/op_set.cc: _run_server, _parse_text_client_parameters", "src/lib/connection_tcp.cc: read, close"]}
{"id": "C64", "title": "A read of several keys gets the values of the keys it asked for", "statement": "The answer to get and gets of several keys holds, in the order of the request, for each key that has a value this value (data, flags, and for gets the version) as it was at one moment during the read, and nothing for the others, wherever each key is read; a read handed to another node has the outcome it would have had there, however many tries break.", "quantifier": "for every list of keys, every distribution of the keys over nodes, every store, and every point at which connections break", "why_tests_cant": "answers are cut at every byte, the record may change between tries, and entries are filled step by step over several tries", "anchors": ["src/lib/op_get.cc: _parse_text_server_parameters, _run_server, _run_client, _parse_text_client_parameters", "src/lib/queue_proxy_read.cc: run, _get_op", "src/lib/cluster.cc: pre_proxy_read"]}
{"id": "C65", "title": "All storages behave alike", "statement": "Every command and every history of commands has in storage_tcb (B+ tree) and storage_kch (Kyoto Cabinet) the answer and the effect it has in storage_tch, so that a cluster may mix them and change between them; no command touches a record of another key; an error is reported only if nothing was stored.", "quantifier": "for every store, entry, command, time and failure of the library, and every history", "why_tests_cant": "three copies of the same code that differ in a few lines each; the differences show only for expired records, failing disks and unusual keys", "anchors": ["src/lib/storage_tcb.cc: incr", "src/lib/storage_kch.cc: set, incr, iter_next", "src/lib/storage_tch.cc: set, incr, iter_next"]}
{"id": "C66", "title": "The search by prefix finds the keys with the prefix", "statement": "keys answers, for each prefix, with keys that exist, can be read and begin with the prefix, with all of them if they are not more than the limit, wherever they are stored and however often connections break on the way.", "quantifier": "for every set of keys, list of prefixes, limit, distribution over nodes and point at which a connection breaks", "why_tests_cant": "the list of prefixes is overwritten by the list of keys while the request may still be repeated", "anchors": ["src/lib/op_keys.cc: _parse_text_server_parameters, _run_server, _run_client, _parse_text_client_parameters", "src/lib/queue_proxy_read.cc: run", "src/lib/storage_tcb.cc: get_key", "src/lib/cluster.cc: pre_proxy_read"]}
{"id": "C67", "title": "Another cluster that duplicates this one ends with the same values", "statement": "When a master sends copies of its writes by several threads and all its records by another one to a cluster that knows nothing about a key, then, whatever the order of arrival, both clusters answer the same for the key afterwards.", "quantifier": "for every store, sequence of writes, reads and dumped records, interleaving, loss of earlier copies and repetition", "why_tests_cant": "the outcome depends on whether a record of the dump or the copy of a later write arrives first", "anchors": ["src/lib/cluster_replication.cc: on_post_proxy_write, _enqueue", "src/lib/handler_dump_replication.cc: run", "src/lib/handler_cluster_replication.cc: run", "src/lib/storage_tch.cc: set"]}
{"id": "C68", "title": "Index servers that share a lock change the node map one at a time", "statement": "At most one index server has the lock; it is handed on in the order in which it was asked for, and nobody is kept from it; every operation reported as done is worked out from the result of the one before it and none is lost.", "quantifier": "for every number of clients, interleaving of their steps, age of the directory states they are shown, expiry of sessions and loss of answers", "why_tests_cant": "it takes an expired session, a lost answer or a node that vanishes between two requests, at one particular moment", "anchors": ["src/lib/zookeeper_lock.cc: _lock_operation, _child_floor, less_than_with_suffix, _unlock_internal", "src/lib/zookeeper_coordinator.cc: begin_operation, end_operation, store_state, restore_state"]}
{"id": "C69", "title": "Several index servers behave as one", "statement": "Commands given to any of several index servers that start and stop at any time have the results, and leave the node map and tables, that a single index server would have; a partition never has two masters and is not lost.", "quantifier": "for every number of servers, history of commands, starts and reported changes, and every interleaving", "why_tests_cant": "a server misses a change only if it is made between its load of the map and the setting of its watch", "anchors": ["src/lib/zookeeper_coordinator.cc: setup, _handle_nodemap_watch_event, restore_state", "src/lib/cluster.cc: startup_index, _update, _load, _save, down_node"]}
{"id": "C70", "title": "An acknowledged write survives the loss of the master", "statement": "When a client has been told that its write is stored, every slave that could be promoted holds that value or a later one, whatever happens to the master afterwards; when nothing is on its way any more, slaves and master agree.", "quantifier": "for every number of nodes and clients, history of writes, reads, changes of role, and every order, delay, repetition and loss of copies", "why_tests_cant": "it takes the loss of a master at the moment when a copy has reached some slaves and not others, or the copies of two writes to overtake each other", "anchors": ["src/lib/op_set.cc: _run_server", "src/lib/op_proxy_write.h: _is_sync", "src/lib/cluster.cc: post_proxy_write, _enqueue", "src/lib/queue_proxy_write.cc: run", "src/lib/storage_tch.cc: set"]}
{"id": "C71", "title": "Every request gets its answer", "statement": "A client that sends requests one after the other over a connection, without waiting, has exactly these carried out, in this order, and reads for each exactly one answer, that of this request; requests for no answer get none; no byte of a value is taken for a request.", "quantifier": "for every sequence of requests, every content of keys and values, every behaviour of the rest of the node", "why_tests_cant": "a single byte too many or too few in one answer shows only in the answers to later requests, and only for some combinations of requests, failures and contents", "anchors": ["src/flared/handler_request.cc: run", "src/lib/op.cc: run_server", "src/lib/op_parser_text.cc: parse_server", "src/flared/op_parser_text_node.cc: _determine_op", "src/lib/op_set.cc: _parse_text_server_parameters, _run_server", "src/lib/op_gat.cc: _parse_text_client_parameters"]}
{"id": "C72", "title": "Binary answers belong to their requests", "statement": "A client of the binary protocol that sends requests without waiting has exactly these carried out, in this order, and reads for each exactly one answer in the format of the protocol, under the operation code and the tag of the request, except that quiet requests are answered only when they fail (or, for a get, find something); refused, unknown and cut off requests have no effect.", "quantifier": "for every sequence of requests with lengths that fit, every content, every behaviour of the rest of the node, every place where the connection ends", "why_tests_cant": "the framing depends on every length field of every request and answer; a wrong code, tag or length shows only in combinations of pipelined requests, forwarding and failures", "anchors": ["src/flared/handler_request.cc: run", "src/flared/op_parser_binary_node.cc: _determine_op", "src/lib/op.cc: _parse_binary_server_parameters, _send_binary_result, _send_binary_response", "src/lib/op_get.cc: _send_binary_entry", "src/lib/op_incr.cc: _run_server, _send_binary_result", "src/lib/op_gat.cc: _send_binary_result", "src/lib/op_error.cc: op_error"]}
{"id": "C73", "title": "A reload is a restart or nothing", "statement": "When a node is told to read its configuration again, then either the file has no mistakes and the node goes on with exactly the options it would have if it were started with this file, or it has one and the node goes on as before; a reload that was asked for is not lost, and a list of index servers is read as it was written.", "quantifier": "for every command line, every first file, every sequence of files read since (good, bad or unreadable), every interleaving of changes of the file, signals and the main loop", "why_tests_cant": "the options pass from file to option object to running parts in several steps that can stop in between; what is left behind shows only in a later reload or in one part of the node", "anchors": ["src/flared/ini_option.cc: load, reload, _process_index_servers", "src/flared/flared.cc: startup, run, reload", "src/lib/cluster_replication.cc: start, stop", "src/flarei/ini_option.cc: reload", "src/flarei/flarei.cc: reload"]}
{"id": "C74", "title": "The table of a MySQL slave says what is read at the master", "statement": "A MySQL slave that is connected to the master of a partition reads every copy it is sent as one event with one statement; the statement changes the row of the copy's key and no other; after the copies of any writes the slave's table says for every key and every later time what is read at the master: value, flag, version and expiry. Copies are sent once and in order, and a client that waits for its copy is let go.", "quantifier": "for every configuration with usable names, every value of any bytes, every key, every history of writes and reads at the master, every way the slave logs in and asks, every interleaving of writes, connections and failures", "why_tests_cant": "values and keys that break out of a statement, lengths at the border of a packet of 16 MB, and connections that fail with entries in the queue do not occur in tests with a few sample keys; tests with a real MySQL server are not part of the project", "anchors": ["src/lib/mysql_replication.cc: handshake, parse, send, _send_query_log_event, _write, _read", "src/flared/handler_mysql_replication.cc: run", "src/lib/cluster.cc: post_proxy_write, _enqueue"]}
{"id": "C75", "title": "A thread of a pool runs what it is given", "statement": "Every handler given to a thread that was taken from a pool and signalled is started exactly once, after finitely many steps of the thread; a thread on the stack of the pool is alive, empty and asked for nothing; every entry put into its queue is taken out once, by the handler it was meant for or by the clean-up; a caller that waits for the start or for the end of the thread is let go when that has happened, not before.", "quantifier": "for every interleaving of the thread, the callers that take it, those that shut it down and those that use its queue, every number of reuses, whatever the handlers do, whether or not the pool has room", "why_tests_cant": "the outcomes depend on single steps between the return of a handler and the next wait; a test does not hit these windows, and what goes wrong shows only when the thread is reused", "anchors": ["src/lib/thread.cc: thread_run, wait, trigger, run, clean, shutdown, notify_shutdown, enqueue", "src/lib/thread_pool.cc: get, clean", "src/lib/op_kill.cc: _run_server"]}
{"id": "C76", "title": "What one end writes is what the other end reads", "statement": "The peer of a connection is sent a beginning of the bytes handed to write and writeline, in order, nothing twice and nothing left out; if no call says that something went wrong, it is sent all of them, and a peer that reads the same lines and blocks gets exactly those that were written; after an error nothing more is sent; the buffer for writes is never overrun.", "quantifier": "for every sequence of calls with any bytes, buffered or not, every way in which the kernel takes the bytes (parts of any size, full, interrupted, time passing, broken), every way in which the network cuts the stream", "why_tests_cant": "a test machine takes every answer in one piece; full socket buffers, partial writes after kept-back blocks and breaks in between are unbounded in number and order", "anchors": ["src/lib/connection_tcp.cc: write, writeline, close, _add_write_buf, _clear_write_buf", "src/lib/connection_tcp.h: write_timeout, chunk_size", "src/lib/op_get.cc: _send_text_entry"]}
{"id": "C77", "title": "A slow client is not misread", "statement": "If a client is silent for longer than the read time-out, the session has carried out exactly the requests that came whole before; nothing of a request that was begun, and nothing that comes later, is taken for something the client did not mean.", "quantifier": "for every sequence of requests of the text and of the binary protocol, every place of the breaks, everything that comes after them, whatever the node does", "why_tests_cant": "the time-out is minutes long and can fall on every byte of every request; tests do not wait within values", "anchors": ["src/lib/connection_tcp.cc: read, readline, readsize", "src/lib/op.cc: run_server", "src/flared/handler_request.cc: run", "src/lib/op_parser.h: parse_server", "src/lib/op_set.cc: _parse_text_server_parameters"]}
{"id": "C78", "title": "An index server does what its lines say, and tells the truth about it", "statement": "Every line sent to an index server is carried out as its words say, whatever the number of blanks and whatever the buffers held before, or refused with ERROR; after a session with any bytes at all the cluster is what the commands carried out, in order, have made of it and nothing else; OK is answered if and only if the command succeeded; requests of nodes to change roles and states arrive as they were sent.", "quantifier": "for every sequence of lines of any words and blanks, every stream of bytes, every state of the index server and every failure of its storage", "why_tests_cant": "operators type any words with any blanks and any mistakes; the consequences of a line that is half understood show only in the cluster that results", "anchors": ["src/flarei/handler_request.cc: run", "src/flarei/op_parser_text_index.cc: _determine_op", "src/lib/op_node_add.cc, op_node_remove.cc, op_node_role.cc, op_node_state.cc, op_shutdown.cc, op_kill.cc, op_meta.cc", "src/lib/util.cc: next_word, next_digit", "src/lib/cluster.cc: set_node_role, set_node_state"]}
{"id": "C79", "title": "A node is one memory for all its clients", "statement": "Whatever any number of clients send at the same time, and however the threads of the node take turns at the storage, there is one order of all requests, in agreement with the order of every client's own requests, such that every client reads what one memory would have answered had it carried them out one at a time; a request that fails has changed nothing.", "quantifier": "for every number of clients, all requests of the text protocol, every interleaving of the locked sections of their threads including the late removals of expired records, every failure of the storage", "why_tests_cant": "the interleavings of the sections are many, and the window between finding a record expired and removing it is short; a test sees some of them and cannot tell which answers no order explains", "anchors": ["src/flared/handler_request.cc: run", "src/lib/storage_tch.cc: set, incr, get, remove, truncate (sections between lock and unlock)", "src/lib/op_get.cc, op_set.cc, op_incr.cc, op_delete.cc, op_touch.cc, op_gat.cc, op_flush_all.cc: _run_server"]}
{"id": "C80", "title": "A cluster is one memory for its clients, whichever node they are connected to", "statement": "Whatever any number of clients send at the same time to any nodes of a cluster at rest - masters, slaves or proxies - there is one order of all requests, in agreement with the order of every client's own requests, such that every client reads what one memory would have answered had it carried them out one at a time; a request that fails or is refused has changed nothing.", "quantifier": "for every consistent node map, every number of clients at any nodes, all requests, every interleaving of the locked sections of all threads at all nodes, all delays, losses and overtakings of copies, full queues, and failures of the storages", "why_tests_cant": "the answer to a request that is handed on is written by one node, read by another and written again, so every kind of request, outcome and value has its own path of bytes; and what no single memory explains depends on interleavings at several nodes that a test cannot produce at will", "anchors": ["src/lib/cluster.cc: pre_proxy_read, pre_proxy_write, post_proxy_write", "src/lib/queue_proxy_read.cc: run", "src/lib/queue_proxy_write.cc: run", "src/lib/op_incr.cc: _parse_text_client_parameters", "src/lib/op_set.cc, op_delete.cc, op_touch.cc, op_gat.cc, op_get.cc: _run_server, _run_client, _parse_text_client_parameters", "src/lib/op_flush_all.cc: _run_server"]}
{"id": "C81", "title": "Clients of the binary protocol see the same one memory as clients of the text protocol", "statement": "Whatever any number of clients, some of the binary and some of the text protocol, send to a node at the same time, there is one order of all requests, in agreement with the order of every client's own requests, such that every client reads - byte for byte, in the answers of its own protocol - what one memory would have answered had it carried them out one at a time; a version given with a binary request makes it conditional on that version.", "quantifier": "for every number of clients of both protocols, all requests of the protocol description with all keys, values, flags, expiries and amounts, every interleaving of the locked sections of all threads, and all failures of the storage", "why_tests_cant": "the two protocols share the storage but neither the reading of requests nor the writing of answers, so a test would have to compare every pair of requests and outcomes across protocols under every interleaving; what a version does depends on the order of two 64-bit numbers", "anchors": ["src/lib/op.cc: run_server, _send_binary_result", "src/lib/op_set.cc, op_delete.cc, op_incr.cc, op_get.cc, op_touch.cc, op_gat.cc: _parse_binary_request, _send_binary_result", "src/lib/storage.cc: entry::parse", "src/lib/storage_tch.cc: set, remove, incr, get"]}
{"id": "C82", "title": "Every connection is served or closed, in the order in which it came, never more than the limit at once", "statement": "The connections taken from a listening socket are, in order, those that were opened to it; each of them is served by one thread or closed, none is forgotten; at no time are more threads taken than max-connection allows, and a connection is closed unserved only when all places are taken.", "quantifier": "for every sequence of connections at all sockets, every order in which epoll reports them, every end of sessions, every reload of the limit and every failure of accept and of the creation of threads", "why_tests_cant": "the outcome depends on how arrivals, ends of sessions, the return of threads to the pool and reloads interleave, and on failures of system calls that tests do not produce", "anchors": ["src/flared/flared.cc: run", "src/flarei/flarei.cc: run", "src/lib/server.cc: wait", "src/lib/thread_pool.cc: get, clean", "src/flared/flared.cc: _set_resource_limit"]}
{"id": "C83", "title": "The number of entries waiting for senders is known and limited", "statement": "total_thread_queue is the number of entries waiting in all queues, never runs below zero, and never exceeds the limit given by the calls that put entries into a queue; a call above the limit is refused and leaves everything as it was.", "quantifier": "for every number of queues, every interleaving of the steps of all calls that put entries in and take them out, and all limits", "why_tests_cant": "the counter is shared by all queues while each queue has a lock of its own, so errors show only in particular interleavings of the look, the push and the count of different threads", "anchors": ["src/lib/thread.cc: enqueue, dequeue", "src/lib/thread_pool.h: _global_queue counters", "src/lib/cluster.cc: _get_proxy_thread"]}
{"id": "C84", "title": "The counters of stats say what the clients were told", "statement": "What a session adds to the counters of a node - requests, hits, misses, refused versions, stored items - is what its client has counted from its own requests and the answers it has read.", "quantifier": "for every sequence of requests, all keys and values, all outcomes at the storage and at other nodes, and whatever other clients do in between", "why_tests_cant": "the counts are made in each operation apart from the answers, from other variables, so that they can differ for particular combinations of keys, outcomes and forwards only", "anchors": ["src/lib/op_get.cc: _run_server", "src/lib/op_set.cc: _run_server", "src/lib/op_delete.cc: _run_server", "src/lib/op_incr.cc: _run_server", "src/lib/stats.h"]}
{"id": "C85", "title": "A dump is of the partition that was asked for, and a list of keys is complete", "statement": "The request of a node for a dump or for a list of keys is read by the other node as it was meant, and nothing is accepted that cannot be meant (a partition of none, a negative wait); the list of keys that is sent holds, each once, exactly the keys of that partition that the iteration gives, ends with END only when the iteration has come to its end, and is taken for complete by the receiver only then.", "quantifier": "for all waits, partitions, numbers of partitions and limits, every request line, all sets of plain keys, every point at which the iteration or the connection fails", "why_tests_cant": "numbers of partitions and limits are 32 and 64 bit numbers and the check of them adds to one of them; which keys are listed depends on the content, the order of iteration and the place where the connection breaks", "anchors": ["src/lib/op_dump.cc: _parse_text_server_parameters, _run_client", "src/lib/op_dump_key.cc: _parse_text_server_parameters, _run_server, _run_client, _parse_text_client_parameters"]}
{"id": "C86", "title": "A new partition starts with the values of all keys that move to it", "statement": "While a partition is added, the masters go on working; when the new partition becomes active, the master of every key by the new table - the new one, or the one that has had the key - answers for the key as its master by the old table does.", "quantifier": "for every table, every number of masters and their contents, all events at them, every order in which dumps and copies arrive, every content of the new master that is older, all keys and times", "why_tests_cant": "what the new master ends with depends on how dumps of several masters, copies of writes, expiries and the arrival of the node map at each master interleave, and on what is left at the masters from partitions added before", "anchors": ["src/lib/cluster.cc: _shift_node_role, post_proxy_write, _determine_partition", "src/lib/op_dump.cc: _run_server, _parse_text_client_parameters", "src/lib/key_resolver_modular.cc: startup, resolve"]}
{"id": "C87", "title": "The code of the shared lock lets one operation in, removes what it made, and lets the next one in", "statement": "In the code of the ZooKeeper lock, call by call, with two threads per object: an object between a successful begin_operation and end_operation whose session is alive has a node in the directory and it is the first one, so no two are inside; a thread whose node is the first one gets in after its next time-out; an object that is done has no node in the directory and none on its way.", "quantifier": "for every number of objects, every interleaving of their threads, every answer to every call, every loss of answers with the request carried out at once, later or never, every staleness and order of listings, every expiry of sessions", "why_tests_cant": "lost answers, requests that arrive late, stale listings and expiring sessions cannot be arranged together in a test, and the outcome depends on the call at which each of them happens", "anchors": ["src/lib/zookeeper_lock.cc: lock, unlock, wait_for_ownership, _lock_internal, _lock_operation, _unlock_internal, _lookup_node, _reset_lock", "src/lib/zookeeper_coordinator.cc: begin_operation, end_operation"]}
{"id": "C88", "title": "A node that joins has the map of the index server and finds keys as it does", "statement": "A node that asks an index server to be added, over one connection and with whatever bytes in its buffers, comes up only if it was taken and the whole answer arrived; then its node map is the one of the index server after the add, which is the stored one, its hash function and key table are the index server's, its tables list the same masters, slaves and balances for every partition, it starts no copying, its own entry is an active proxy or as it was and down, and no other entry was changed. Near nodes are those whose addresses begin with the same bits.", "quantifier": "for every orderly history of the index server, every node name and port, every failure of the coordinator, every point at which the connection is lost, every contents of the buffers, every network mask", "why_tests_cant": "the answer depends on the whole history of the cluster and the ways to lose a connection are as many as the bytes of the answer; agreement of two processes about every partition is not visible from one of them", "anchors": ["src/lib/cluster.cc: startup_node, add_node, reconstruct_node, _reconstruct_node_partition, node::parse", "src/lib/op_node_add.cc: _run_server, _run_client, _parse_text_client_parameters", "src/lib/op_meta.cc: _run_server, _parse_text_client_parameters", "src/lib/util.cc: inet_addr"]}
{"id": "C89", "title": "A node with a broken or hanging storage is found out, and a sound one is left alone", "statement": "The map of the time watcher has exactly the storage accesses that are going on, each once. A node answers ping with an error exactly if its storage has reported an error or, at a look of the polling thread, an access had been going on for longer than the threshold for warnings at its beginning and the threshold for errors at the look; it does so for good. The index server then asks to take it out at exactly the check that reaches its threshold, and never asks to take it in again.", "quantifier": "for every sequence of accesses that begin and end, looks, storage errors and reloads of the options, every clock reading, every reuse of ids after the counter has wrapped around, every node map seen by the index server", "why_tests_cant": "it needs accesses that hang for longer than a threshold in every overlap with others, looks at every instant, and reloads in between; a test cannot make the storage hang at will", "anchors": ["src/lib/time_watcher.cc: register_target, unregister_target, check_timestamps, _generate_id, start, stop", "src/lib/time_watcher_observer.cc: on_storage_access_no_response", "src/lib/time_watcher_processor.cc: operator()", "src/flared/flared.cc: on_storage_error, reload", "src/lib/op_ping.cc: _run_server, _parse_text_client_parameters", "src/lib/handler_monitor.cc: _up, _down"]}
{"id": "C90", "title": "The index server takes the nodes that fail down, and no others", "statement": "When a node stops answering, the index server's map says it is down once its watcher has seen as many failures as the threshold and the controller has done the requests that waited; when it answers again, one successful check is enough for the map to say it is not. A node that does not fail as often as the threshold says between two successful checks is never taken down by the server itself. Every node of the map, and no other, is watched.", "quantifier": "for every interleaving of the rounds of all watching threads, the controller, commands of operators and nodes, and reloads, every length of the controller's queue, every node map, every threshold", "why_tests_cant": "it needs every interleaving of the watchers, the controller's queue and the operators' commands, with nodes that fail at every instant and a coordinator that fails to store", "anchors": ["src/lib/handler_monitor.cc: run, _process_monitor, _process_queue, _up, _down", "src/lib/handler_controller.cc: run, _process_queue", "src/lib/cluster.cc: startup_index, add_node, down_node, up_node, remove_node, request_down_node, request_up_node, _load, _update, set_monitor_threshold"]}
{"id": "C91", "title": "A node that is stopped in order loses no acknowledged write", "statement": "When a data node is asked to stop, everything it has acknowledged to its clients, before the request or while it stops, has been handed to the slave when the process ends; the storage is closed only after every thread has ended, and nobody uses it afterwards; and the stop ends after a bounded number of steps and a bounded time of waiting, whatever the clients and the other threads do.", "quantifier": "for any number of threads that serve clients and of senders, every interleaving of their steps with the steps of the main thread, every moment of the signal, with copies waited for or not", "why_tests_cant": "the outcome depends on where each thread is at the moment it is asked to stop; most of the windows are a few instructions wide and every combination of them over all threads counts", "anchors": ["src/flared/flared.cc: run, shutdown, sa_term_handler", "src/lib/thread_pool.cc: shutdown, clean", "src/lib/thread.cc: thread_run, shutdown, notify_shutdown, clean, dequeue, enqueue, ~thread", "src/flared/handler_request.cc: run", "src/lib/handler_proxy.cc: run", "src/lib/server.cc: wait"]}
{"id": "C92", "title": "What stats nodes and stats threads show is what there is", "statement": "A client that asks for the nodes or the threads gets every one of them, in order, with all its values and nothing else, and the same in the text and the binary protocol; a value can be looked up by the name of the node and the field; servers that answer alike know the same nodes; and asking does not change or disturb anything in the server.", "quantifier": "for every list of nodes and of threads, every name, port, role, state, partition, balance, every number of clients that ask at the same time and every order in which they take turns", "why_tests_cant": "names are put into buffers of fixed size and lines are split at blanks, so it depends on the lengths and bytes of all names; requests that disturb each other do so only in a window of a few instructions", "anchors": ["src/lib/op_stats.cc: _send_stats(thread), _send_stats_nodes, _send_text_stat, _send_binary_stat, _send_text_result, _send_binary_result", "src/flared/op_stats_node.cc: _run_server", "src/flarei/op_stats_index.cc: _run_server", "src/lib/thread_pool.cc: get_thread_info, get_thread_size"]}
{"id": "C93", "title": "A deleted value does not come back", "statement": "In a partition whose clients write and delete a key, a deletion that was answered after waiting for the copies has been carried out by every slave, and no later loss of the master, promotion, late or repeated copy, dump or write makes a node show the deleted value or an older one again; values that were answered are there, or have been replaced or deleted by a later request; and when nothing is on its way any more, all nodes agree.", "quantifier": "for every number of nodes, every sequence of writes, deletions, copies that arrive late, twice or never, dumps, promotions and reads, every answered deletion and every moment after it", "why_tests_cant": "a deleted value comes back only in certain interleavings of copies, dumps and other deletions, and there are unboundedly many", "anchors": ["src/lib/storage_tch.cc: set, remove", "src/lib/storage.cc: _set_header_cache, src/lib/storage.h: _get_header_cache", "src/lib/op_proxy_write.cc: run_client", "src/lib/cluster.cc: post_proxy_write, _shift_node_role", "src/lib/handler_dump_replication.cc: run", "src/lib/op_dump.cc: _run_client"]}
{"id": "C94", "title": "An index server follows the shared node map", "statement": "An operation of an index server that comes to store its result has the newest stored node map in memory; a server whose watch is set and whose session is up to date has the stored map in memory, and one that is behind gets there by itself; a failed call, a lost connection or an expired session is noticed and made up for.", "quantifier": "for every sequence of changes by others, delays, reported changes, operations, failed calls and expiries", "why_tests_cant": "a call has to fail, or the session to expire, at one particular moment of an operation or of the handler", "anchors": ["src/lib/zookeeper_coordinator.cc: begin_operation, setup, _handle_global_watch_event, _handle_nodemap_watch_event, _sync_completion_fn", "src/lib/cluster.cc: _update"]}
{"id": "C95", "title": "Index servers start with the partitioning they share, or not at all", "statement": "Index servers that start from the same shared directory use the same key resolver and hash algorithm, whatever their own options are and in whatever order the variables come; a server that starts finds a partition for every key; one that cannot read the variables, or to which they make no sense, does not start.", "quantifier": "for every set of options, directory, order and outcome of the reads", "why_tests_cant": "a read has to fail in the middle of the start, or an option to have a value nobody tries", "anchors": ["src/lib/zookeeper_coordinator.cc: get_meta_variables", "src/flarei/flarei.cc: startup", "src/lib/key_resolver_modular.cc: startup, resolve", "src/lib/key_resolver.h: type_cast"]}
{"id": "C96", "title": "Listening sockets leave nothing behind", "statement": "Whatever calls fail while a server sets up its sockets, stopping it closes every descriptor, frees every port and removes the files of its Unix domain sockets, so it can be started again; every connection that is accepted is handed on or closed; a server that was killed can be started again.", "quantifier": "for every number and order of sockets, every path, and every set of failing calls", "why_tests_cant": "calls such as chmod and epoll_ctl do not fail in tests, and the length of a path matters", "anchors": ["src/lib/server.cc: listen, close, wait, _add_epoll_socket, _set_listen_socket_option"]}
{"id": "C97", "title": "Reads and writes handed on over one connection get their own answers", "statement": "Requests that a node hands on to another one over the same connection, in any order, each end for what the other node has done for this request - a write with its result, a read with the value of its key - or are known to have failed; no request is carried out again because of what another one has left on the connection; a connection with something left on it does not serve others.", "quantifier": "for every sequence of reads and writes, every storage, every answer, and every way in which answers are late, cut or refused", "why_tests_cant": "it takes an answer that is late by more than the timeout on a connection that stays open, followed by another request of a particular kind", "anchors": ["src/lib/queue_proxy_read.cc: run", "src/lib/queue_proxy_write.cc: run", "src/lib/handler_proxy.cc: run, _process_queue", "src/lib/op_get.cc: _parse_text_client_parameters", "src/lib/connection_tcp.cc: read, readline, readsize"]}
{"id": "C98", "title": "The stored index state is read back as it was written, or refused without harm", "statement": "Loading the text that the index server has stored gives back exactly the nodes, the version and the thread type it was made from, whatever the names of the nodes are and whatever was in memory before; a text of a former version of the program is read as well; a text that is not complete is refused, and what was in memory stays.", "quantifier": "for every state that can be in memory, every length at which its text is cut, every state in memory before, every state that replaces the stored one between two requests to ZooKeeper", "why_tests_cant": "it takes names with characters that have to be escaped, a disk that is full in the middle of a write, or a state of more than 8192 bytes that grows between two requests", "anchors": ["src/lib/cluster.cc: _save, _load, _update", "src/lib/cluster.h: node::serialize", "src/lib/file_coordinator.cc: _save, _load", "src/lib/zookeeper_coordinator.cc: restore_state"]}
{"id": "C99", "title": "An iteration over a storage returns every key that stays", "statement": "While records come, go and are rewritten between two calls of iter_next, an iteration that reaches its end has returned every key whose record stayed where it was, with the hash database and the B+ tree of Tokyo Cabinet and with Kyoto Cabinet; in particular a dump that ends with END has sent every visible record of the partition, though reading an expired record removes it.", "quantifier": "for every file or tree, every sequence of changes between the calls, every set of expired records, every partition", "why_tests_cant": "it takes expired records that nobody has read since, or writes in the middle of an iteration, at just the places next to the cursor; the copy that lacks a record says so to nobody", "anchors": ["src/lib/storage_tch.cc: iter_begin, iter_next", "src/lib/storage_tcb.cc: iter_begin, iter_next, get", "src/lib/storage_kch.cc: iter_begin, iter_next", "src/lib/op_dump.cc: _run_server"]}
{"id": "C100", "title": "Reads survive whatever the system calls answer, and the byte counters count what was moved", "statement": "Whatever poll, ioctl(FIONREAD), read and write answer - parts of any length, EAGAIN, EINTR, timeouts, errors, the end of the stream - the lines and blocks that readline and readsize return are those of the byte stream of the peer, in order and without a gap, up to the first read that reports a failure; a read that fails leaves the connection closed or at a place from which reading can go on; and bytes_read and bytes_written count exactly the bytes taken from and given to sockets.", "quantifier": "for every stream, every sequence of reads, every sequence of answers of the kernel", "why_tests_cant": "tests run over the loopback device, where whole requests arrive in one piece and no signal, timeout or half-read buffer falls between two system calls of one read", "anchors": ["src/lib/connection_tcp.cc: read, readline, readsize, write, _add_read_buf, close", "src/lib/stats.h: add_bytes_read, add_bytes_written"]}
{"id": "C101", "title": "The threads that send to another node are as many as configured and take every entry", "statement": "Whatever the order in which the threads that serve clients and the threads that send to one other node take turns: there are never more senders for a node than proxy-concurrency; the choice of a sender never fails for want of one; an entry handed to a chosen sender is taken as long as the sender has not been stopped; and the entries of one key go to one sender.", "quantifier": "for every number of client threads, every proxy-concurrency, every interleaving of their steps with the start of the senders", "why_tests_cant": "the window lies between the entry of a thread into the map of active threads and the moment it marks itself as running, and opens only at the first requests for a node; tests use one client", "anchors": ["src/lib/cluster.cc: _get_proxy_thread, _enqueue, post_proxy_write", "src/lib/thread_pool.cc: get, get_active, clean", "src/lib/thread.cc: trigger, run, enqueue", "src/flared/ini_option.cc: proxy-concurrency"]}
{"id": "C102", "title": "What a client was told survives every failover of a whole cluster", "statement": "In a cluster with an index server, nodes that receive its maps at different times, in any order, and act on them, and masters that stop one after the other and are replaced by what the index server names: a write that any master answered with STORED or DELETED after waiting for its copies is there, or was followed by a later one, at the last master and at all its slaves.", "quantifier": "for every orderly history of the index server, every key, every number of nodes and partitions, every number of failovers, every order in which maps, copies, answers and clients' requests come", "why_tests_cant": "the tests of the repository have no cluster: each class is tested alone, and the chain from the index server's map over its delivery and the decision who is the master to the copies of a write is never run; the interleavings are unbounded", "anchors": ["src/lib/cluster.cc: down_node, reconstruct_node, pre_proxy_write, post_proxy_write", "src/lib/queue_node_sync.cc: run", "src/lib/queue_proxy_write.cc: run", "src/lib/op_proxy_write.cc: _run_server", "src/lib/storage.h: set, remove"]}
{"id": "C103", "title": "Incomplete request lines are refused", "statement": "A store, cas, touch or delete line without a key, a store or touch line without a time, a store line without a size, a cas line without a version, and a line with a word that is no option are refused; a delete line needs the key only.", "quantifier": "for every key, number, option word, state of the scan buffer and previous entry", "why_tests_cant": "all keys and numbers, and all words that are not options", "anchors": ["src/lib/storage.cc: entry::parse", "src/lib/util.h: next_word, next_digit"]}
{"id": "C104", "title": "The client library tells its caller what the node has done", "statement": "For every sequence of calls of connect, disconnect, get, gets, add and cas of the client library: the node carries out exactly the storage call that is meant; the caller is told the result of this very call, or that it has failed; get reports a value only if the node has sent one for this key; disconnect closes the connection and connect opens it, so that nothing of the old connection is read after it.", "quantifier": "for every sequence of calls, keys, values, versions, entries passed by the caller, contents of the node, other clients, answers in part or late, connections that break or cannot be opened", "why_tests_cant": "the mistakes show only after a lost or late answer, or when an entry is used again, in combination with a particular order of calls", "anchors": ["src/lib/client.cc: client::connect, client::disconnect, client::get, client::gets, client::add, client::cas", "src/lib/op_get.cc: op_get::_parse_text_client_parameters", "src/lib/connection_tcp.cc: connection_tcp::close"]}
{"id": "C105", "title": "show variables says which options are in force", "statement": "A node and an index server answer show exactly if its first word is variables. The answer is read line by line up to END as every option under its name with its value, and nothing else; different options give different answers. After every history of configuration files the values that are shown are those the running parts act on. The list of index servers that is shown can be put into a configuration file and names the same servers.", "quantifier": "for every request line, every value of every option, every start and every sequence of configuration files, accepted, refused or unreadable, and every partitioning shared by the index servers", "why_tests_cant": "a test looks at some options with usual values; values from refused files, values with line ends and options overruled by shared ones are combinations nobody configures in a test", "anchors": ["src/flared/show_node.cc: show_node::lines, show_node::index_servers_line", "src/flared/op_show_node.cc: op_show_node::_send_show_variables", "src/flarei/op_show_index.cc: op_show_index::_send_show_variables", "src/lib/op_show.cc: op_show::_parse_text_server_parameters"]}
{"id": "C106", "title": "the index server keeps its state where it is told", "statement": "An index server starts with exactly those values of index-db that name a file or ZooKeeper servers. Without index-db the state is kept in flare.xml in the data directory, so that index servers with different data directories never share a state. The ZooKeeper servers that are asked, and the path there, are those that are written.", "quantifier": "for every value of index-db and every data directory, and for every list of ZooKeeper servers, ports and paths", "why_tests_cant": "the tests read a few absolute paths and one or two servers; relative paths, paths with a question mark, servers without a port and long lists of servers are read by patterns that silently do not match", "anchors": ["src/flarei/flarei.cc: flarei::startup", "src/lib/coordinator_factory.cc: coordinator_factory::create_coordinator", "src/lib/coordinator.h: coordinator::uri", "src/lib/zookeeper_coordinator.h: zookeeper_coordinator::ext_uri", "src/lib/zookeeper_coordinator.cc: zookeeper_coordinator::zookeeper_coordinator", "src/lib/file_coordinator.cc: file_coordinator::_save"]}
{"id": "C107", "title": "a node that stops answering is found out in time", "statement": "A node that no longer answers is asked to be taken down after the threshold times the interval plus the timeout of checks, whatever else its watcher has to do in this time. A node that answers in time is never asked to be taken down.", "quantifier": "for every threshold, interval and timeout, every counter and clock at the beginning, and every sequence of checks, node maps and new options that reach the watcher", "why_tests_cant": "tests stop a node so that its connection breaks, and wait a few seconds; a node that hangs while a node map is on its way to it needs a wait of up to a week to be seen", "anchors": ["src/lib/handler_monitor.cc: handler_monitor::run, handler_monitor::_process_monitor, handler_monitor::_process_queue", "src/lib/thread.cc: thread::dequeue", "src/lib/queue_node_sync.cc: queue_node_sync::run", "src/lib/op_node_sync.cc: op_node_sync::_parse_text_client_parameters", "src/lib/connection_tcp.cc: connection_tcp::read"]}
{"id": "C108", "title": "one server at a time in a data directory", "statement": "At most one server runs with a given file for its process id, and the file names it. A server that was stopped or killed does not keep the next one from starting.", "quantifier": "for every content of the file at the beginning, every set of other processes and every history of starts, stops, crashes and other processes, with starts that overlap at any point", "why_tests_cant": "tests start and stop one server in a fresh directory; a start that meets a reused process id, an empty file or another start between check and write depends on moments that a test cannot choose", "anchors": ["src/lib/app.cc: app::_set_pid, app::_clear_pid, app::shutdown", "src/flared/flared.cc: flared::startup, flared::shutdown, main", "src/flarei/flarei.cc: flarei::startup, flarei::shutdown, main"]}
{"id": "C109", "title": "enough files for the connections that are allowed", "statement": "While a server runs, its limit of open files is enough for all the connections that max-connection allows: two files for each and 16 more. A reload never lowers the limits.", "quantifier": "for every value of max-connection at the start and at every reload, all limits at the start, with and without the privilege to raise them, and every limit of the kernel", "why_tests_cant": "tests run with one small max-connection and one set of limits; the overflow needs extreme values, and the reload that is not followed by the limits needs a process without privileges and more connections than a test opens", "anchors": ["src/flared/flared.cc: flared::_set_resource_limit, flared::startup, flared::reload", "src/flarei/flarei.cc: flarei::_set_resource_limit, flarei::reload"]}
{"id": "C110", "title": "the log says what happened", "statement": "On the standard error output every message is one line, in order; the line tells the thread, the level, the place and the text. Through all reloads, messages to syslog carry their level and go to the facility that was asked for last.", "quantifier": "for all lists of messages with all threads, levels, places and texts, and all histories of reloads with all names of facilities", "why_tests_cant": "tests do not read the log; texts longer than the buffer, texts with an end of a line taken from a client's key and misspelt facilities at a reload are not among their inputs", "anchors": ["src/lib/logger.cc: logger::open, logger::close, logger::emerg to logger::debug, logger::_facility_atoi", "src/flared/flared.cc: flared::reload", "src/flarei/flarei.cc: flarei::reload"]}
