{"id": "C01", "title": "Bitmap is an exact bit store", "statement": "For a bitmap over n>0 pieces, writing piece i returns the value that was stored at i, the next read of i returns what was written, and reads of every other piece are unaffected; the byte image never changes length.", "quantifier": "every bitmap length, every content, every index and every sequence of writes", "why_tests_cant": "index/bit arithmetic must hold for all lengths and all histories of writes, not only for the handful of literals in the unit tests", "anchors": ["src/data_structures/bitmap.rs: Bitmap::new, Bitmap::get, Bitmap::change"]}
{"id": "C02", "title": "Bitmap iteration enumerates exactly the pieces", "statement": "Iterating a bitmap over n pieces yields exactly n booleans and the i-th one equals a direct read of piece i (spare bits of the last byte are never yielded).", "quantifier": "every n>0 and every byte content", "why_tests_cant": "the spare-bit boundary occurs for every n not divisible by 8; tests fix one n", "anchors": ["src/data_structures/bitmap.rs: Bitmap::iter, impl Iterator for Iter"]}
{"id": "C03", "title": "Bitmap weight counts the held pieces", "statement": "weight() equals the number of pieces i<n whose bit is set.", "quantifier": "every bitmap reachable by any sequence of new/replace_data/change calls", "why_tests_cant": "quantifies over all histories including hostile bitfields with spare bits set", "anchors": ["src/data_structures/bitmap.rs: Bitmap::weight, Bitmap::replace_data"]}
{"id": "C04", "title": "Bitfield bytes are interpreted as the protocol says", "statement": "replace_data accepts a byte string iff it has exactly ceil(n/8) bytes (and otherwise changes nothing); after acceptance piece i is held iff bit 7-(i mod 8) of byte i/8 is set.", "quantifier": "every n>0 and every byte string", "why_tests_cant": "all byte strings and lengths", "anchors": ["src/data_structures/bitmap.rs: Bitmap::replace_data, Bitmap::get", "src/macros.rs: unsigned_ceil_div"]}
{"id": "C05", "title": "ID bit access", "statement": "On 160-bit IDs, bit i is bit i of the big-endian number (0 = most significant); flip_bit(i) flips exactly bit i, change_bit(i,v) sets exactly bit i to v; an index >=160 panics.", "quantifier": "all IDs, all indices, both values", "why_tests_cant": "2^160 IDs", "anchors": ["src/data_structures/id.rs: ID::get_bit, ID::flip_bit, ID::change_bit"]}
{"id": "C06", "title": "Prefix comparison of IDs", "statement": "first_diff_bit_idx(a,b) is the least index where a and b differ (None iff equal); cmp_first_n_bits(a,b,n) orders the first n bits of a and b lexicographically.", "quantifier": "all pairs of IDs, all n<=160", "why_tests_cant": "2^320 pairs", "anchors": ["src/data_structures/id.rs: ID::first_diff_bit_idx, ID::cmp_first_n_bits"]}
{"id": "C07", "title": "XOR distance is the Kademlia metric", "statement": "The distance of two IDs is zero iff they are equal, is symmetric, is its own inverse (distance(a, distance(a,b)) = b), satisfies the triangle inequality, and its number of leading zero bits is the length of the common prefix.", "quantifier": "all IDs", "why_tests_cant": "2^320 pairs", "anchors": ["src/data_structures/id.rs: impl BitXor for ID, impl Sub for ID"]}
{"id": "C08", "title": "IDs are ordered by numeric value", "statement": "Comparing two IDs (distances) orders them as 160-bit big-endian integers; in particular two different IDs never compare equal, and sorting by it is well defined.", "quantifier": "all pairs and triples of IDs", "why_tests_cant": "order laws over 2^160 values", "anchors": ["src/data_structures/id.rs: impl Ord for ID"]}
{"id": "C09", "title": "ID weight is the population count", "statement": "weight() of an ID is the number of one bits among its 160 bits.", "quantifier": "all IDs", "why_tests_cant": "2^160 inputs, branch-free SWAR arithmetic whose carries must never cross lanes", "anchors": ["src/data_structures/id.rs: ID::weight, hamming_weight"]}
{"id": "C10", "title": "Randomising an ID keeps the requested prefix", "statement": "randomize_after_bit(i) keeps bits 0..=i and, depending on the random source, can produce every ID with that prefix.", "quantifier": "all IDs, all i, all outcomes of the random source", "why_tests_cant": "the random source is unbounded", "anchors": ["src/data_structures/id.rs: ID::randomize_after_bit"]}
{"id": "C11", "title": "Peer-wire messages survive the wire", "statement": "Decoding the encoding of any message that fits the 32-bit length prefix, followed by any bytes, returns that message.", "quantifier": "all ten message kinds, all field values, all payloads, all trailing bytes", "why_tests_cant": "unbounded payloads and trailing data", "anchors": ["src/peers/connection/message.rs: Message::into_bytes, Message::from_buf"]}
{"id": "C12", "title": "Peer-wire encoding is the BitTorrent format and self-delimiting", "statement": "Every encoded message starts with the big-endian count of the bytes following it, then the message id, then its fields as big-endian 32/16-bit integers; no encoding is a proper prefix of another and different messages have different encodings.", "quantifier": "all messages", "why_tests_cant": "all pairs of messages", "anchors": ["src/peers/connection/message.rs: Message::into_bytes, Message::len"]}
{"id": "C13", "title": "Bytes from a peer never crash the decoder", "statement": "Decoding a received buffer either yields a message or is refused, it never panics.", "quantifier": "all byte buffers", "why_tests_cant": "all byte strings", "anchors": ["src/peers/connection/message.rs: Message::from_buf"]}
{"id": "C14", "title": "Framing is independent of TCP segmentation", "statement": "For any sequence of messages a peer sends, however the byte stream is cut into reads, the receiver hands over exactly those messages, in order, each as soon as its last byte was read, and nothing else.", "quantifier": "all message sequences (each at most 16512 bytes), all segmentations", "why_tests_cant": "all segmentations of all streams", "anchors": ["src/peers/connection/connection_manager.rs: manager_receiver", "src/peers/connection/message.rs: Message::from_buf"]}
{"id": "C15", "title": "An unknown message is skipped alone", "statement": "A length-delimited message with an id the client does not know is skipped and does not affect the messages after it.", "quantifier": "all streams containing unknown ids, all segmentations", "why_tests_cant": "depends on which bytes happen to be buffered together", "anchors": ["src/peers/connection/connection_manager.rs: manager_receiver"]}
{"id": "C16", "title": "The receive loop ends or makes progress", "statement": "When the peer closes the stream, or announces a message that cannot be accepted, the receive task ends (and the peer is reported as disconnected) rather than spinning.", "quantifier": "all streams, all segmentations", "why_tests_cant": "a liveness property over infinite executions", "anchors": ["src/peers/connection/connection_manager.rs: manager_receiver"]}
{"id": "C17", "title": "Received messages are dispatched to the right consumer", "statement": "Every piece message goes to the block consumer, every port message to the DHT with the peer's own IP and the announced port, every other message to the peer manager tagged with the sending peer; nothing is lost, duplicated or reordered within a consumer.", "quantifier": "all message sequences", "why_tests_cant": "all sequences", "anchors": ["src/peers/connection/connection_manager.rs: handle_message, manager_receiver"]}
{"id": "C18", "title": "Handshake format", "statement": "The handshake sent is the 68-byte BitTorrent handshake with the torrent's info-hash and our peer id, and a byte string is accepted only if it has 68 bytes and the protocol string; every handshake we produce is accepted.", "quantifier": "all info-hashes, peer ids and byte strings", "why_tests_cant": "all 68-byte strings", "anchors": ["src/peers/connection/handshake.rs: Handshake::new, Handshake::as_ref, Handshake::check_validity"]}
{"id": "C19", "title": "Only peers of the same torrent are accepted", "statement": "A handshake whose info-hash differs from ours is refused; a correct handshake is accepted however TCP segments it.", "quantifier": "all handshakes and all segmentations", "why_tests_cant": "adversarial input and schedule", "anchors": ["src/peers/connection/handshake.rs: Handshake::check_validity", "src/peers/connection/connection_manager.rs: initiate_handshake"]}
{"id": "C20", "title": "Compact addresses round-trip", "statement": "Encoding an IPv4 address+port (6 bytes), an id (20 bytes), a DHT node (26 bytes) or a list of nodes and decoding gives the original; byte strings of any other length are refused.", "quantifier": "all addresses, ids and lists", "why_tests_cant": "unbounded lists, all byte strings", "anchors": ["src/transcoding/mod.rs", "src/peers/peer.rs: Peer", "src/dht/routing_table/bucket.rs: Node::from_compact_bytes", "src/dht/krpc_message.rs: Nodes", "src/data_structures/id.rs: From<Vec<u8>>, Deserialize"]}
{"id": "C21", "title": "Bounded set of pieces in progress", "statement": "At most 10 pieces are in progress at any time; adding a piece that is in progress keeps its blocks; adding an eleventh is refused and changes nothing.", "quantifier": "all sequences of operations by any number of peers", "why_tests_cant": "all interleavings", "anchors": ["src/peers/connection/pending_pieces.rs: PendingPieces::add_piece"]}
{"id": "C22", "title": "No block is handed out twice while its request is live", "statement": "A block handed to a peer is not handed to any peer again until the 7 s timeout passed or the assignment was cancelled; a downloaded block is never handed out; only blocks of the asked pieces are handed out, and each at most once per call.", "quantifier": "all histories of take/add/cancel by any number of peers at any times", "why_tests_cant": "all interleavings and clock values", "anchors": ["src/peers/connection/pending_pieces.rs: take_not_good_blocks, filtered_iter_over_blocks, is_expired_pending"]}
{"id": "C23", "title": "Cancelling affects only the cancelling peer's assignments", "statement": "cancel_pending(peer) makes exactly the blocks pending at that peer available again and changes no other block.", "quantifier": "all states", "why_tests_cant": "all states", "anchors": ["src/peers/connection/pending_pieces.rs: cancel_pending"]}
{"id": "C24", "title": "Block acceptance by size", "statement": "A block is accepted iff it lies in the piece and has exactly the size the piece geometry prescribes for its index.", "quantifier": "all piece lengths, block indices and payload lengths", "why_tests_cant": "boundary cases for all piece lengths", "anchors": ["src/peers/connection/pending_pieces.rs: check_block_bounds"]}
{"id": "C25", "title": "A piece is complete exactly when all its blocks have arrived", "statement": "Completion is reported exactly when the last missing block arrives, and the assembled piece is the concatenation of the blocks in index order.", "quantifier": "all arrival orders including duplicates", "why_tests_cant": "all permutations and repetitions", "anchors": ["src/peers/connection/pending_pieces.rs: add_block_data"]}
{"id": "C26", "title": "Block accounting never under- or overflows", "statement": "Accepting a block keeps the per-piece counters consistent with the block states (no arithmetic underflow).", "quantifier": "all histories", "why_tests_cant": "all histories", "anchors": ["src/peers/connection/pending_pieces.rs: add_block_data, PendingPiece"]}
{"id": "C27", "title": "Requests stay inside the piece", "statement": "Every block request names a byte range inside its piece, and the ranges requested for a piece tile it exactly.", "quantifier": "all piece lengths", "why_tests_cant": "all piece lengths", "anchors": ["src/peers/connection/message.rs: impl From<&BlockAddress> for Request", "src/peers/connection/downloader.rs"]}
{"id": "C28", "title": "Only hash-verified pieces are reported finished", "statement": "A finished-piece report is emitted only for a piece whose concatenated blocks hash to the torrent's piece hash, and carries exactly those blocks.", "quantifier": "all histories of received blocks (adversarial peers)", "why_tests_cant": "adversarial input", "anchors": ["src/peers/connection/downloader.rs: foo, manage_piece_downloader", "src/transcoding/metainfo.rs: piece_hash"]}
{"id": "C29", "title": "An assigned piece gets downloaded", "statement": "When a piece is assigned to a connected peer that answers every request correctly, the piece is eventually reported finished.", "quantifier": "all piece lengths, all fair schedules", "why_tests_cant": "liveness over all schedules", "anchors": ["src/peers/connection/downloader.rs: manage_piece_downloader, foo", "src/peers/connection/connection_handle.rs: Connection::download_piece"]}
{"id": "C30", "title": "Each obtained block is requested exactly once", "statement": "A downloader requests every block it obtained exactly once, and again only after that block failed; nothing else is requested.", "quantifier": "all event sequences", "why_tests_cant": "all interleavings", "anchors": ["src/peers/connection/downloader.rs: manage_piece_downloader"]}
{"id": "C31", "title": "Connection batches are well formed", "statement": "A batch of peers to connect has at most the requested size, no duplicates, contains only known peers that were not active, marks exactly those active, and otherwise changes only the peers reported bad.", "quantifier": "all peer tables, limits and reports, any hash-map iteration order", "why_tests_cant": "all tables and orders", "anchors": ["src/peers/active_peers.rs: Peers::return_batch_of_bad_peers_and_get_new_batch"]}
{"id": "C32", "title": "Connection batches prefer better peers", "statement": "No peer is left out of a batch in favour of one with a worse status; the batch is short only if every connectable peer is in it.", "quantifier": "all peer tables, any iteration order", "why_tests_cant": "all tables and orders", "anchors": ["src/peers/active_peers.rs: get_new_batch / activate_peers_in_locked_data"]}
{"id": "C33", "title": "Asking about peers does not consume them", "statement": "Answering a DHT query or checking whether enough peers are known does not change which peers can still be connected to.", "quantifier": "all peer tables", "why_tests_cant": "all histories", "anchors": ["src/peers/active_peers.rs: Peers::get_good_peers, Peers::enough_peers"]}
{"id": "C34", "title": "Known peers are never lost", "statement": "Every peer ever reported remains known, and the status of a connected peer changes only by its own report.", "quantifier": "all histories", "why_tests_cant": "all histories", "anchors": ["src/peers/active_peers.rs: Peers::insert, Peers::extend"]}
{"id": "C35", "title": "Resource limits of the torrent manager", "statement": "At most 10 peers are active and at most 9 pieces are being downloaded, for every history; the subtractions that compute the free slots never underflow.", "quantifier": "all histories of peer messages and timer ticks", "why_tests_cant": "all interleavings", "anchors": ["src/torrent_manager.rs: TorrentManager::refresh_peer_list, start_downloading_new_pieces"]}
{"id": "C36", "title": "Availability counters are exact", "statement": "The availability of a piece equals the number of active peers that announced it.", "quantifier": "all histories", "why_tests_cant": "all histories of joins, haves, bitfields and departures", "anchors": ["src/torrent_manager.rs: handle_command_tmp, mark_peer_as_inactive, accept_bitfield_if_its_first"]}
{"id": "C37", "title": "Selected work is feasible", "statement": "Whenever a (peer, piece) pair is selected, the peer is active, not choking us, has the piece, the piece is not downloaded yet, and the peer has fewer than 4 pieces assigned. A selected piece counts as in progress, and as assigned to that peer, exactly if the request was handed over to the peer's connection, and nothing else changes.", "quantifier": "all states, any hash-map iteration order", "why_tests_cant": "all states", "anchors": ["src/torrent_manager.rs: sequential_select_piece, find_peer_with_piece, start_downloading_piece, mark_piece_as_ongoing"]}
{"id": "C38", "title": "Feasible work is found", "statement": "If some missing piece is held by an unchoked peer with spare capacity, a pair is selected; successive selections spread over different pieces.", "quantifier": "all states", "why_tests_cant": "all states", "anchors": ["src/torrent_manager.rs: sequential_select_piece"]}
{"id": "C39", "title": "No peer message crashes the torrent manager", "statement": "Handling any message from any active peer never panics.", "quantifier": "all messages, all states", "why_tests_cant": "adversarial input", "anchors": ["src/torrent_manager.rs: handle_command_tmp"]}
{"id": "C40", "title": "Peer state follows the peer's messages", "statement": "A peer is considered choking iff its last choke/unchoke message was choke (initially choking); its piece set is what it announced by have, plus a bitfield that arrives while nothing else is known of it.", "quantifier": "all message histories", "why_tests_cant": "all histories", "anchors": ["src/torrent_manager.rs: handle_command_tmp, PeerInfo"]}
{"id": "C41", "title": "Connections can be re-established", "statement": "connect is idempotent for connected peers; after a connection failed or was closed by the peer, connect tries again.", "quantifier": "all histories", "why_tests_cant": "all histories", "anchors": ["src/peers/connection/connection_handle.rs: Connection::connect, Connection::disconnect"]}
{"id": "C42", "title": "Waiting for unchoke", "statement": "A task waiting for unchoke proceeds exactly when the most recent state reported through the choke lock is unchoke.", "quantifier": "all sequences of choke/unchoke reports and waits", "why_tests_cant": "all interleavings", "anchors": ["src/peers/connection/connection_handle.rs: choke_lock, ChokeLocker, UnchokeWaiter::wait_if_choking"]}
{"id": "C43", "title": "Binary values survive URL encoding", "statement": "The info_hash and peer_id parameters contain only unreserved characters and %XX escapes and percent-decode to the original 20 bytes; different values give different text.", "quantifier": "all byte strings", "why_tests_cant": "2^160 values", "anchors": ["src/tracker/announce.rs: Announce::as_url"]}
{"id": "C44", "title": "Announce URL parameters parse back", "statement": "Splitting the URL's query at '&' and '=' gives back exactly the announced parameters in order, with no_peer_id present iff compact is off, and event/tracker id present iff set.", "quantifier": "all announces", "why_tests_cant": "all strings supplied by trackers/torrents", "anchors": ["src/tracker/announce.rs: Announce::as_url"]}
{"id": "C45", "title": "Tracker event protocol", "statement": "The first announce is 'started', it is repeated until answered, afterwards only regular or 'completed' announces are sent, and nothing is sent after 'stopped'.", "quantifier": "all histories of responses, failures, timers, completion and shutdown", "why_tests_cant": "all schedules", "anchors": ["src/tracker/tracker_manager.rs"]}
{"id": "C46", "title": "'stopped' is sent on shutdown", "statement": "On shutdown every tracker that was told 'started' is told 'stopped' exactly once, as the last announce.", "quantifier": "all schedules", "why_tests_cant": "all schedules", "anchors": ["src/tracker/tracker_manager.rs"]}
{"id": "C47", "title": "Tracker id is sticky and only comes from the tracker", "statement": "Once a tracker supplied a tracker id, every later announce carries the first supplied one; before that none is sent.", "quantifier": "all histories", "why_tests_cant": "all histories", "anchors": ["src/tracker/tracker_manager.rs", "src/tracker/announce.rs"]}
{"id": "C48", "title": "Reported progress", "statement": "'left' is the number of bytes still missing.", "quantifier": "all torrents and progress values", "why_tests_cant": "arithmetic over all geometries", "anchors": ["src/tracker/tracker_manager.rs"]}
{"id": "C49", "title": "Tracker responses are decoded completely", "statement": "The peers of a response are exactly the consecutive 6-byte groups of its compact peer string; interval, complete, incomplete, peers are required and other keys ignored.", "quantifier": "all responses", "why_tests_cant": "all byte strings", "anchors": ["src/tracker/response.rs"]}
{"id": "C50", "title": "Single-file storage: read returns what was written", "statement": "After any sequence of successful piece writes, reading any block inside written pieces returns the bytes last written there; writes of one piece never alter bytes of another.", "quantifier": "all torrent geometries, all histories of writes and reads", "why_tests_cant": "all geometries and histories", "anchors": ["src/fs/single_file_rw.rs"]}
{"id": "C51", "title": "A byte range is split over the files exactly", "statement": "For any range of the torrent's byte space, the per-file ranges produced are in file order, lie within their files, are contiguous, and cover exactly the range intersected with the torrent.", "quantifier": "all file lists (including empty files) and all ranges", "why_tests_cant": "unbounded file lists", "anchors": ["src/fs/multi_file_iter.rs: FilesInBounds"]}
{"id": "C52", "title": "Multi-file storage: read returns what was written", "statement": "As for single-file storage, for torrents with many files where pieces and blocks straddle file boundaries.", "quantifier": "all file layouts, all histories", "why_tests_cant": "all geometries and histories", "anchors": ["src/fs/multi_file_rw.rs", "src/fs/multi_file_iter.rs"]}
{"id": "C53", "title": "A completed download equals the content", "statement": "After all pieces of the true content were written, in any order and with repetitions, every file on disk has exactly its declared length and its bytes of the content.", "quantifier": "all contents, layouts and write orders", "why_tests_cant": "all permutations", "anchors": ["src/fs/multi_file_rw.rs", "src/fs/single_file_rw.rs"]}
{"id": "C54", "title": "Directory creation order", "statement": "The directories created are exactly the proper ancestors of the torrent's files; each is created once and after its parent.", "quantifier": "all file trees, any hash-set order", "why_tests_cant": "all trees and orders", "anchors": ["src/fs/multi_file_rw.rs: dir_builder"]}
{"id": "C55", "title": "Restart on existing download", "statement": "Starting the client on a directory that already holds (part of) the download succeeds and keeps the data.", "quantifier": "all file trees and crash points of a previous run", "why_tests_cant": "crash points", "anchors": ["src/fs/multi_file_rw.rs: dir_builder", "src/fs/multi_file_rw.rs: MultiFileRw::new"]}
{"id": "C56", "title": "Bounded number of open files, least valuable evicted", "statement": "At most 16 files are open in the cache at any time; the requested file is always in the cache afterwards; a file is evicted only if the cache is full and the request misses, and then one with maximal weighted idle time.", "quantifier": "all request histories, any hash-map order", "why_tests_cant": "all histories", "anchors": ["src/fs/file_cache.rs"]}
{"id": "C57", "title": "Downloads stay inside the torrent's directory", "statement": "No path opened or created for a torrent leaves the directory named after the torrent.", "quantifier": "all torrents (adversarial metainfo)", "why_tests_cant": "adversarial input", "anchors": ["src/fs/multi_file_rw.rs: dir_builder", "src/fs/multi_file_rw.rs"]}
{"id": "C58", "title": "Piece hashes are split exactly", "statement": "The pieces string is accepted iff it is a nonempty multiple of 20 bytes and yields its consecutive 20-byte groups.", "quantifier": "all byte strings", "why_tests_cant": "all lengths", "anchors": ["src/transcoding/metainfo.rs: deserialize_pieces_field"]}
{"id": "C59", "title": "Info-hash is over the exact bytes of the info dictionary", "statement": "The torrent identity is the SHA-1 of the info dictionary's bytes as they appear in the file, independent of every other key.", "quantifier": "all metainfo files", "why_tests_cant": "all byte strings", "anchors": ["src/transcoding/metainfo.rs: impl FromBencode for Torrent"]}
{"id": "C60", "title": "Trackers are collected and classified", "statement": "The tracker set contains exactly the announce / announce-list URLs with a supported scheme; parsing fails if there is none.", "quantifier": "all metainfo files", "why_tests_cant": "all nested lists", "anchors": ["src/transcoding/metainfo.rs: TrackerAddr::new, Torrent"]}
{"id": "C61", "title": "Accepted torrents have consistent geometry", "statement": "An accepted torrent has a nonzero piece length and exactly ceil(total length / piece length) piece hashes.", "quantifier": "all metainfo files", "why_tests_cant": "adversarial input", "anchors": ["src/transcoding/metainfo.rs: impl FromBencode for Info"]}
{"id": "C62", "title": "Bencode is decoded canonically", "statement": "Decoding an encoded value (with anything after it) returns the value and leaves the rest; whatever decodes was the canonical encoding of the result.", "quantifier": "all values, all byte strings", "why_tests_cant": "unbounded nesting", "anchors": ["src/transcoding/metainfo.rs", "src/tracker/response.rs", "src/dht/krpc_message.rs"]}
{"id": "C63", "title": "Piece verification", "statement": "A piece is verified iff the hash of the concatenation of its blocks equals the recorded hash, independent of how it is divided into blocks.", "quantifier": "all pieces and divisions", "why_tests_cant": "all divisions", "anchors": ["src/transcoding/metainfo.rs: piece_hash, _is_valid_piece"]}
{"id": "C64", "title": "Routing table invariant", "statement": "For every history of node sightings: between 1 and 161 buckets, at most 8 nodes per bucket, every node sits in the bucket determined by its common prefix with our id, and no id occurs twice.", "quantifier": "all histories, all times", "why_tests_cant": "unbounded histories", "anchors": ["src/dht/routing_table/table.rs", "src/dht/routing_table/bucket.rs"]}
{"id": "C65", "title": "Routing table lookup", "statement": "get/contains find a node iff it is stored; a find for a stored id returns exactly that node; a sighting of a stored node refreshes it and keeps its address.", "quantifier": "all histories", "why_tests_cant": "unbounded histories", "anchors": ["src/dht/routing_table/table.rs: RoutingTable::get_node, contains_node, find_node, touch_node"]}
{"id": "C66", "title": "Good nodes are never evicted", "statement": "A node seen in the last 15 minutes is still in the table after any insertion; an insertion displaces at most one node, which was not good.", "quantifier": "all histories, all times", "why_tests_cant": "unbounded histories", "anchors": ["src/dht/routing_table/bucket.rs: Bucket::try_insert", "src/dht/routing_table/table.rs: insert_new_good"]}
{"id": "C67", "title": "A new node is refused only when its bucket is full of good nodes and cannot be split", "statement": "A sighting of an unknown node is stored unless the responsible bucket holds 8 good nodes and does not contain our own id.", "quantifier": "all histories", "why_tests_cant": "unbounded histories", "anchors": ["src/dht/routing_table/table.rs: insert_new_good", "src/dht/routing_table/bucket.rs: id_within_bucket_range"]}
{"id": "C68", "title": "Closest-node queries", "statement": "A find for an unknown id returns only good nodes, at least 8 if the table has them, at most 8, sorted by XOR distance, and no good node left out is closer than one returned.", "quantifier": "all tables and targets", "why_tests_cant": "all tables", "anchors": ["src/dht/routing_table/table.rs: get_closest_nodes, find_node"]}
{"id": "C69", "title": "Refresh targets lie in the bucket being refreshed", "statement": "The random ids generated for refreshing fall into exactly the bucket they were generated for, one per non-last bucket that is not full.", "quantifier": "all tables, all outcomes of the random source", "why_tests_cant": "all random outcomes", "anchors": ["src/dht/routing_table/table.rs: iter_over_ids_within_fillable_buckets"]}
{"id": "C70", "title": "The stored table is restored or refused", "statement": "Loading what was stored returns the same buckets and nodes; if the process dies while storing, loading the partial file never yields a corrupted table.", "quantifier": "all tables, all crash points (prefixes of the file)", "why_tests_cant": "crash points", "anchors": ["src/dht/routing_table/table.rs: store, load"]}
{"id": "C71", "title": "DHT messages survive the wire", "statement": "Decoding the encoding of any query, response or error returns the same message.", "quantifier": "all messages, all ids, tokens, lists", "why_tests_cant": "unbounded", "anchors": ["src/dht/krpc_message.rs: Message::into_bytes, Message::from_bytes"]}
{"id": "C72", "title": "A query is interpreted by its method name", "statement": "The kind of a received query is the one named by its method, and a message's kind is the one named by its type field.", "quantifier": "all datagrams", "why_tests_cant": "adversarial input", "anchors": ["src/dht/krpc_message.rs: Message, Arguments"]}
{"id": "C73", "title": "A datagram never crashes the DHT", "statement": "Decoding any datagram yields a message or an error, never a panic.", "quantifier": "all datagrams", "why_tests_cant": "adversarial input", "anchors": ["src/dht/krpc_message.rs: Message::from_bytes", "src/data_structures/id.rs: impl Deserialize for ID"]}
{"id": "C74", "title": "A datagram is interpreted by its own bytes", "statement": "The effect of a datagram does not depend on earlier datagrams' contents.", "quantifier": "all sequences of datagrams", "why_tests_cant": "all histories", "anchors": ["src/dht/connection/connection_manager.rs: manage_udp, handle_received_message"]}
{"id": "C75", "title": "A response is delivered to its requester at most once", "statement": "A response is delivered only to the task that sent the query with the same transaction id and kind, only if it comes from the queried node, and at most once per query.", "quantifier": "all histories of queries and datagrams", "why_tests_cant": "all histories", "anchors": ["src/dht/connection/pending.rs", "src/dht/connection/connection_manager.rs: handle_resp"]}
{"id": "C76", "title": "The table of outstanding queries is bounded by unanswered queries", "statement": "Every answered query's entry is removed.", "quantifier": "all histories", "why_tests_cant": "unbounded histories", "anchors": ["src/dht/connection/pending.rs", "src/dht/connection/connection_manager.rs"]}
{"id": "C77", "title": "Announces are accepted only with a token issued to the same IP", "statement": "An announce_peer is stored iff its token is the one this node hands out to the source IP; the stored peer has the source IP and announced port.", "quantifier": "all histories, sources, tokens", "why_tests_cant": "adversarial input", "anchors": ["src/dht/connection/connection_manager.rs: token_is_valid, handle_query"]}
{"id": "C78", "title": "Announced peers are served", "statement": "A peer stored for an info-hash is returned by later get_peers queries for it (up to the packet limit), only peers stored for that info-hash are returned, and the answer fits one datagram.", "quantifier": "all histories", "why_tests_cant": "unbounded histories", "anchors": ["src/dht/dht_manager.rs: store_new_peer, find_peers"]}
{"id": "C79", "title": "Announcing to the best responding nodes", "statement": "announce_peer goes to at most 16 nodes, only to nodes that supplied a token and with that token; nodes that returned peers come before those that did not.", "quantifier": "all histories", "why_tests_cant": "all histories", "anchors": ["src/dht/peer_fetcher.rs"]}
{"id": "C80", "title": "The fetcher's node set stays bounded", "statement": "The working set of lookup nodes is cut to 128 whenever it reached 512, keeping preferred nodes.", "quantifier": "all histories", "why_tests_cant": "all histories", "anchors": ["src/dht/peer_fetcher.rs"]}
{"id": "C81", "title": "Only solicited lookup answers are used", "statement": "Peers, nodes and tokens are accepted only from nodes in the working set, and a node is queried only once it was learned.", "quantifier": "all histories", "why_tests_cant": "all histories", "anchors": ["src/dht/peer_fetcher.rs"]}
{"id": "C82", "title": "Shutdown waits for every task", "statement": "The final wait of shutdown returns only when every task holding a shutdown receiver has ended, and every receiver that existed at shutdown time is notified exactly once.", "quantifier": "all interleavings of clone, drop, send, wait", "why_tests_cant": "all interleavings", "anchors": ["src/shutdown.rs"]}
{"id": "C83", "title": "Receivers created late are still notified", "statement": "A receiver cloned after shutdown was signalled observes the shutdown.", "quantifier": "all interleavings", "why_tests_cant": "all interleavings", "anchors": ["src/shutdown.rs: impl Clone for Receiver"]}
{"id": "C84", "title": "Capped growing interval", "statement": "Each delay is the minimum of the growth formula and the cap; for a monotone formula delays never decrease and never exceed the cap.", "quantifier": "all formulas, caps, numbers of ticks", "why_tests_cant": "unbounded ticks", "anchors": ["src/capped_growing_interval.rs"]}
{"id": "C85", "title": "Nothing is held back", "statement": "A request for blocks of pieces in progress hands out every block nobody was asked for and, unless those fill the buffer exactly, every block requested more than 7 s ago; afterwards every block of the asked pieces is downloaded or has a live request.", "quantifier": "all histories, buffer sizes and clock values", "why_tests_cant": "all histories and interleavings", "anchors": ["src/peers/connection/pending_pieces.rs: take_not_good_blocks"]}
{"id": "C86", "title": "An announced peer is offered", "statement": "A peer that was just announced (by a tracker, the DHT or an incoming announcement) is in the next batch for new connections unless the batch is filled with other untried peers.", "quantifier": "all histories, batch sizes and hash-map orders", "why_tests_cant": "all histories", "anchors": ["src/peers/active_peers.rs: insert, extend, return_batch_of_bad_peers_and_get_new_batch"]}
{"id": "C87", "title": "Peers that left are reported", "statement": "At the first timer tick after a peer became unreachable or disconnected, the table of known peers records it as unable to connect or as untried respectively, unless that tick connects to it again.", "quantifier": "all histories of messages, ticks and table operations", "why_tests_cant": "all histories", "anchors": ["src/torrent_manager.rs: mark_peer_as_inactive, refresh_peer_list"]}
{"id": "C88", "title": "Announces are paced", "statement": "After a request to a tracker failed the next one is sent only after a pause of 64 seconds; after an answer the next regular announce is sent only after a pause of the interval that answer asked for.", "quantifier": "all histories of responses, failures, timers, completion and shutdown", "why_tests_cant": "all schedules", "anchors": ["src/tracker/tracker_manager.rs: manage_http_tracker, contact_tracker"]}
{"id": "C89", "title": "Peers returned by a tracker reach the client", "statement": "Every peer in every answer of a tracker is handed to the table of known peers, before anything else is done with the answer.", "quantifier": "all histories", "why_tests_cant": "all schedules", "anchors": ["src/tracker/tracker_manager.rs: manage_http_tracker"]}
{"id": "C90", "title": "A damaged table file is refused", "statement": "Whatever bytes the file of the DHT routing table holds, the program starts: the file is loaded as a usable table or refused.", "quantifier": "all file contents", "why_tests_cant": "adversarial or corrupted input", "anchors": ["src/dht/routing_table/table.rs: RoutingTable::new, try_loading_from_disk", "src/data_structures/id.rs: impl Deserialize for ID"]}
{"id": "C94", "title": "Queries and answers on the wire are BEP 5", "statement": "Every query a task asks for leaves as exactly one datagram to its target that is the BEP 5 encoding of the query with the own id and the transaction id the answer is matched by; every answer leaves as one datagram to the asking address with the transaction id of the query; a ping is answered at once, find_node and get_peers are handed to the manager with the address and transaction id, everything else has no effect.", "quantifier": "all histories of commands and datagrams", "why_tests_cant": "all histories, adversarial input", "anchors": ["src/dht/connection/connection_manager.rs: send, handle_query, handle_received_message", "src/dht/connection/channel_message/to_connection.rs"]}
{"id": "C95", "title": "No datagram can stop the DHT connection", "statement": "Whatever bytes arrive from whatever address, the task that owns the socket goes on.", "quantifier": "all datagrams, senders and states", "why_tests_cant": "adversarial input", "anchors": ["src/dht/connection/connection_manager.rs: manage_udp, handle_received_message"]}
{"id": "C96", "title": "The client keeps announcing itself in the DHT", "statement": "However nodes answer, every lookup of peers ends within a bounded time; then the client is announced and the next lookup begins after the pause, never sooner.", "quantifier": "all histories of answers, timers and pauses", "why_tests_cant": "all schedules, adversarial answers", "anchors": ["src/dht/peer_fetcher.rs: periodically_fetch_peers, fetch_peers"]}
{"id": "C91", "title": "The routing table is kept fresh", "statement": "As long as the program runs, the task that owns the routing table asks good nodes for ids of every bucket that is not full of good nodes, again and again with at most the pause of the interval in between, and a table whose nodes all went silent is revived.", "quantifier": "all histories of queries, answers, announcements and timers", "why_tests_cant": "all schedules, adversarial traffic", "anchors": ["src/dht/dht_manager.rs: dht, refresh_table", "src/capped_growing_interval.rs"]}
{"id": "C93", "title": "What others announce takes bounded memory", "statement": "The number of peers kept for other torrents is bounded, whatever others announce.", "quantifier": "all histories of announcements", "why_tests_cant": "adversarial, unbounded histories", "anchors": ["src/dht/dht_manager.rs: store_new_peer, PeerMap"]}
{"id": "C97", "title": "Every question is answered", "statement": "Every find_node and get_peers query is answered exactly once, to the asking node under its transaction, with the stored node asked for or good stored nodes near the id; an announced peer of the own torrent becomes a candidate for a connection.", "quantifier": "all histories and queries", "why_tests_cant": "all histories", "anchors": ["src/dht/dht_manager.rs: process_query, process_find_node_query, process_get_peers_query, store_new_peer"]}
{"id": "C98", "title": "Only nodes that answered are stored", "statement": "A node enters the routing table only by answering a query from the address it is stored with, and counts as seen only at moments it answered; nodes merely named by others are pinged, unless they are stored already.", "quantifier": "all histories", "why_tests_cant": "adversarial input, all histories", "anchors": ["src/dht/dht_manager.rs: process_resp, ping_unknown_nodes"]}
{"id": "C99", "title": "The table task survives everything it is sent", "statement": "No query, answer or port message makes the task that owns the routing table panic; the lookups for the torrent are started exactly once, with good nodes, as soon as a turn ends at which a node is good.", "quantifier": "all histories", "why_tests_cant": "adversarial input", "anchors": ["src/dht/dht_manager.rs: dht"]}
{"id": "C100", "title": "The routing table survives shutdown", "statement": "Whenever the program ends, the routing table as it is then is stored.", "quantifier": "all histories, including ends of other tasks", "why_tests_cant": "crash points and schedules", "anchors": ["src/dht/dht_manager.rs: dht", "src/dht/routing_table/table.rs: RoutingTable::store"]}
{"id": "C101", "title": "Answering others does not affect the download", "statement": "Answering a get_peers query of a remote node changes nothing about which peers the client will connect to.", "quantifier": "all histories", "why_tests_cant": "adversarial input, all histories", "anchors": ["src/dht/dht_manager.rs: find_peers", "src/peers/active_peers.rs: get_good_peers"]}
{"id": "C92", "title": "The DHT never comes to a halt", "statement": "Whatever datagrams arrive and however the tasks are scheduled, the socket task and the table task go on handling datagrams, and react to shutdown.", "quantifier": "all histories and schedules of the socket task, the table task, the lookups and the bounded queues between them", "why_tests_cant": "deadlocks depend on schedules and full queues", "anchors": ["src/dht/mod.rs", "src/dht/connection/connection_manager.rs: manage_udp", "src/dht/dht_manager.rs: dht", "src/dht/connection/connection_handle.rs"]}
{"id": "C102", "title": "What the DHT sends is asked for", "statement": "Every datagram the program sends to other DHT nodes is a query of its own or answers exactly one query taken from the socket: sent to the address the query came from, with its transaction id, of its kind; no query is answered twice.", "quantifier": "all histories and schedules of all tasks", "why_tests_cant": "all schedules, unbounded histories", "anchors": ["src/dht/mod.rs", "src/dht/connection/connection_manager.rs: manage_udp", "src/dht/dht_manager.rs: dht", "src/dht/connection/connection_handle.rs"]}
{"id": "C103", "title": "Stored nodes answered", "statement": "Every node in the routing table was in the file at the start, or answered, from the address it is stored with, a query this program had sent with that transaction id.", "quantifier": "all histories and schedules of all tasks", "why_tests_cant": "adversarial input, all schedules", "anchors": ["src/dht/mod.rs", "src/dht/connection/connection_manager.rs: manage_udp", "src/dht/dht_manager.rs: dht", "src/dht/connection/connection_handle.rs"]}
{"id": "C104", "title": "Only first-hand knowledge is passed on", "statement": "Every node named in an answer to others was in the file at the start or answered this program; every peer named for a torrent other than the own announced itself for that torrent with the token issued to its address.", "quantifier": "all histories and schedules of all tasks", "why_tests_cant": "adversarial input, all schedules", "anchors": ["src/dht/mod.rs", "src/dht/connection/connection_manager.rs: manage_udp", "src/dht/dht_manager.rs: dht", "src/dht/connection/connection_handle.rs"]}
{"id": "C105", "title": "The DHT survives any datagram", "statement": "No datagram ends the socket task, so that datagrams go on being sent and received and the table is stored at shutdown.", "quantifier": "all histories, all datagrams", "why_tests_cant": "adversarial input", "anchors": ["src/dht/mod.rs", "src/dht/connection/connection_manager.rs: manage_udp", "src/dht/dht_manager.rs: dht", "src/dht/connection/connection_handle.rs"]}
{"id": "C106", "title": "Nothing is lost between the DHT tasks", "statement": "Between the socket task, the table task and the lookups, queries, answers, commands and datagrams are neither lost, duplicated, invented nor reordered, and no queue exceeds its capacity.", "quantifier": "all histories and schedules", "why_tests_cant": "all schedules", "anchors": ["src/dht/mod.rs", "src/dht/connection/connection_manager.rs: manage_udp", "src/dht/dht_manager.rs: dht", "src/dht/connection/connection_handle.rs"]}
{"id": "C107", "title": "Answers reach the task that asked", "statement": "Every answer a task takes came from the socket as an answer of the right kind to a query that this task had asked for and that had left before with the same transaction id; a task takes at most as many answers as it sent queries.", "quantifier": "all histories and schedules", "why_tests_cant": "all schedules", "anchors": ["src/dht/mod.rs", "src/dht/connection/connection_manager.rs: manage_udp", "src/dht/dht_manager.rs: dht", "src/dht/connection/connection_handle.rs"]}
{"id": "C108", "title": "Messages of a peer are those in its byte stream", "statement": "What is recognised from a peer is exactly the messages of the byte stream read from it, in order, however the bytes are cut into reads and whatever all other peers and tasks do.", "quantifier": "all histories and schedules of the manager, all connections, downloaders and queues", "why_tests_cant": "all schedules, unbounded histories", "anchors": ["src/torrent_manager.rs: TorrentManager", "src/peers/connection/connection_manager.rs: manage_tcp, manager_receiver, manager_sender", "src/peers/connection/connection_handle.rs: Connection", "src/peers/connection/downloader.rs"]}
{"id": "C109", "title": "Nothing is lost between the tasks of the download", "statement": "Every message of a peer is handed over once, in order, to the task it is meant for: blocks to the downloader of that very peer, the port of its DHT node to the DHT with the peer's address, everything else to the manager under the peer's name; nothing is lost while the receivers live, nothing is invented, duplicated or reordered.", "quantifier": "all histories and schedules", "why_tests_cant": "all schedules", "anchors": ["src/torrent_manager.rs: TorrentManager", "src/peers/connection/connection_manager.rs: manage_tcp, manager_receiver, manager_sender", "src/peers/connection/connection_handle.rs: Connection", "src/peers/connection/downloader.rs"]}
{"id": "C110", "title": "Pieces are assigned only to peers that can deliver them", "statement": "A downloader is told to fetch a piece only if its peer announced that piece in its own byte stream and sent an unchoke that no choke followed, and with the hash the torrent file gives for it.", "quantifier": "all histories and schedules", "why_tests_cant": "all schedules, unbounded histories", "anchors": ["src/torrent_manager.rs: TorrentManager", "src/peers/connection/connection_manager.rs: manage_tcp, manager_receiver, manager_sender", "src/peers/connection/connection_handle.rs: Connection", "src/peers/connection/downloader.rs"]}
{"id": "C111", "title": "What counts as finished was received and has the right hash", "statement": "Every piece reported finished consists of blocks that were received from peers as blocks of that piece at those offsets, and hashes to the value in the torrent file, whichever downloaders contributed; every such piece is reported to the manager once and in order.", "quantifier": "all histories and schedules of any number of peers", "why_tests_cant": "all schedules, adversarial peers", "anchors": ["src/torrent_manager.rs: TorrentManager", "src/peers/connection/connection_manager.rs: manage_tcp, manager_receiver, manager_sender", "src/peers/connection/connection_handle.rs: Connection", "src/peers/connection/downloader.rs"]}
{"id": "C112", "title": "The download makes requests, and justified ones", "statement": "The program requests blocks of the pieces it assigned; every request written to a peer is for a block of a piece assigned to that peer and announced by it; requests are written once, in the order in which they are made, and the pieces assigned are recorded as being in progress.", "quantifier": "all histories and schedules", "why_tests_cant": "all schedules", "anchors": ["src/torrent_manager.rs: TorrentManager", "src/peers/connection/connection_manager.rs: manage_tcp, manager_receiver, manager_sender", "src/peers/connection/connection_handle.rs: Connection", "src/peers/connection/downloader.rs"]}
{"id": "C113", "title": "Queues are bounded", "statement": "No queue between manager, connections, downloaders and the DHT exceeds its capacity; whoever finds a queue full waits.", "quantifier": "all histories and schedules", "why_tests_cant": "flooding peers, all schedules", "anchors": ["src/torrent_manager.rs: TorrentManager", "src/peers/connection/connection_manager.rs: manage_tcp, manager_receiver, manager_sender", "src/peers/connection/connection_handle.rs: Connection", "src/peers/connection/downloader.rs"]}
{"id": "C114", "title": "The manager is not held up by a downloader", "statement": "When the manager waits to give a command to a downloader, that downloader alone makes room (or ends) within a bounded number of its own steps, and the manager goes on.", "quantifier": "all reachable states of all tasks", "why_tests_cant": "deadlocks depend on schedules and full queues", "anchors": ["src/torrent_manager.rs: TorrentManager", "src/peers/connection/connection_manager.rs: manage_tcp, manager_receiver, manager_sender", "src/peers/connection/connection_handle.rs: Connection", "src/peers/connection/downloader.rs"]}
{"id": "C115", "title": "No message of a peer stops the client", "statement": "Whatever messages peers send, the manager goes on serving all other peers.", "quantifier": "all histories and schedules, all messages", "why_tests_cant": "adversarial input", "anchors": ["src/torrent_manager.rs: TorrentManager", "src/peers/connection/connection_manager.rs: manage_tcp, manager_receiver, manager_sender", "src/peers/connection/connection_handle.rs: Connection", "src/peers/connection/downloader.rs"]}
{"id": "C116", "title": "The failure of one download task does not stop the others", "statement": "If the task that downloads from one peer fails, the manager and the downloads from other peers go on.", "quantifier": "all histories and schedules", "why_tests_cant": "crash points and schedules", "anchors": ["src/torrent_manager.rs: TorrentManager", "src/peers/connection/connection_manager.rs: manage_tcp, manager_receiver, manager_sender", "src/peers/connection/connection_handle.rs: Connection", "src/peers/connection/downloader.rs"]}
{"id": "C117", "title": "A lost peer makes room for another", "statement": "When the connection to a peer fails or is lost, its place among the ten active peers becomes free for another known peer.", "quantifier": "all histories and schedules", "why_tests_cant": "crash points, unbounded histories", "anchors": ["src/torrent_manager.rs: TorrentManager", "src/peers/connection/connection_manager.rs: manage_tcp, manager_receiver, manager_sender", "src/peers/connection/connection_handle.rs: Connection", "src/peers/connection/downloader.rs"]}
{"id": "C118", "title": "An unreachable peer is tried again", "statement": "Whenever the manager chooses a peer for a connection, also after an earlier failure, a connection to it is tried.", "quantifier": "all histories and schedules", "why_tests_cant": "unbounded histories", "anchors": ["src/torrent_manager.rs: TorrentManager", "src/peers/connection/connection_manager.rs: manage_tcp, manager_receiver, manager_sender", "src/peers/connection/connection_handle.rs: Connection", "src/peers/connection/downloader.rs"]}
{"id": "C119", "title": "An orderly exit", "statement": "When the process ends after Ctrl-C, every tracker that knew of the client was told 'stopped', and the routing table as it was at the end has been written.", "quantifier": "all histories and schedules of all tasks of the program", "why_tests_cant": "crash points, all schedules", "anchors": ["src/main.rs: main", "src/shutdown.rs", "src/dht/mod.rs: start_dht", "src/tracker/mod.rs", "src/torrent_manager.rs: start_client, spawn_tracker_managers"]}
{"id": "C121", "title": "Connections only to peers named by a source", "statement": "The program connects only to peers that a tracker named in an answer, that announced themselves to it for this torrent with a valid token, or that were named in an answer to a query of its own for peers of this torrent.", "quantifier": "all histories and schedules of all tasks of the program", "why_tests_cant": "adversarial input, all schedules", "anchors": ["src/main.rs: main", "src/shutdown.rs", "src/dht/mod.rs: start_dht", "src/tracker/mod.rs", "src/torrent_manager.rs: start_client, spawn_tracker_managers"]}
{"id": "C122", "title": "The DHT outlives trouble on the torrent side", "statement": "Whatever peers, trackers and other nodes send, the tasks of the DHT go on until Ctrl-C.", "quantifier": "all histories and schedules of all tasks of the program", "why_tests_cant": "adversarial input, all schedules", "anchors": ["src/main.rs: main", "src/shutdown.rs", "src/dht/mod.rs: start_dht", "src/tracker/mod.rs", "src/torrent_manager.rs: start_client, spawn_tracker_managers"]}
{"id": "C123", "title": "Announced only with a token of that node", "statement": "Every announce_peer query that leaves is for the torrent and the TCP port of this program and carries a token that the node it is sent to gave before, in an answer to a query of this program for the peers of this torrent.", "quantifier": "all histories and schedules of all tasks of the program", "why_tests_cant": "adversarial input, all schedules", "anchors": ["src/main.rs: main", "src/shutdown.rs", "src/dht/mod.rs: start_dht", "src/tracker/mod.rs", "src/torrent_manager.rs: start_client, spawn_tracker_managers"]}
{"id": "C126", "title": "Queries go only where there is a reason to ask", "statement": "Every DHT query that leaves goes to an address that was in the stored table at the start, that an answer to an earlier query of this program came from or named, or that a connected peer told of, with its own IP address.", "quantifier": "all histories and schedules of all tasks of the program", "why_tests_cant": "adversarial input, all schedules", "anchors": ["src/main.rs: main", "src/shutdown.rs", "src/dht/mod.rs: start_dht", "src/tracker/mod.rs", "src/torrent_manager.rs: start_client, spawn_tracker_managers"]}
{"id": "C127", "title": "Trackers are told who asks and how far the download is", "statement": "Every announce to a tracker is for this torrent and carries the peer id and port of this program; how much is left and downloaded is what has been downloaded, and the tracker is told once when the download is complete.", "quantifier": "all histories and schedules of all tasks of the program", "why_tests_cant": "all schedules", "anchors": ["src/main.rs: main", "src/shutdown.rs", "src/dht/mod.rs: start_dht", "src/tracker/mod.rs", "src/torrent_manager.rs: start_client, spawn_tracker_managers"]}
{"id": "C120", "title": "Ctrl-C ends the program", "statement": "After Ctrl-C the process ends: every task notices the signal, finishes and returns, whatever the other nodes, peers and trackers do or did before.", "quantifier": "all histories and schedules of all tasks of the program", "why_tests_cant": "deadlocks depend on schedules and full queues", "anchors": ["src/main.rs: main", "src/shutdown.rs", "src/dht/mod.rs: start_dht", "src/tracker/mod.rs", "src/torrent_manager.rs: start_client, spawn_tracker_managers"]}
{"id": "C125", "title": "Every peer that was named is tried", "statement": "A peer that a tracker names, that announces itself or that a node names is connected to as soon as there is a free place, whatever else the program does.", "quantifier": "all histories and schedules of all tasks of the program", "why_tests_cant": "adversarial input, all schedules", "anchors": ["src/main.rs: main", "src/shutdown.rs", "src/dht/mod.rs: start_dht", "src/tracker/mod.rs", "src/torrent_manager.rs: start_client, spawn_tracker_managers", "src/peers/active_peers.rs: get_good_peers, return_batch_of_bad_peers_and_get_new_batch"]}
{"id": "C128", "title": "An accepted torrent is stored", "statement": "For every torrent that is accepted, the storage can be created in a directory that has nothing of the torrent's name; then, whatever was read and written before, every piece can be written, what was written is read back, and when all pieces are written the tree holds exactly the torrent's files with their contents and their directories, and nothing else has changed.", "quantifier": "all torrents, all directory trees, all histories of reads and writes", "why_tests_cant": "all torrents, paths and histories", "anchors": ["src/fs/mod.rs: FS::new, read_block, write_piece", "src/fs/single_file_rw.rs", "src/fs/multi_file_rw.rs", "src/fs/file_cache.rs"]}
{"id": "C129", "title": "Verified pieces are the published contents", "statement": "When all pieces of a storable torrent have been written and each was written because the hash of its data is the recorded one, the files hold the contents the torrent was made from, unless two different byte strings with the same SHA-1 were met.", "quantifier": "all torrents, contents, directory trees and histories of reads and writes", "why_tests_cant": "adversarial data, all histories", "anchors": ["src/fs/mod.rs: FS::new, read_block, write_piece", "src/fs/single_file_rw.rs", "src/fs/multi_file_rw.rs", "src/fs/file_cache.rs", "src/transcoding/metainfo.rs: piece_hash"]}
{"id": "C130", "title": "An accepted torrent is worked on at every start", "statement": "Whenever the program is started with a torrent file it accepts and a gateway, all its tasks get to work: the manager is ready to connect to peers, the DHT sends and receives, and every HTTP tracker of the torrent is announced to; also when the same torrent was started before.", "quantifier": "all torrent files, directory trees, stored tables, and starts", "why_tests_cant": "all inputs, also the states that earlier runs leave behind", "anchors": ["src/main.rs: main", "src/torrent_manager.rs: TorrentManager::spawn", "src/fs/mod.rs: FS::new", "src/dht/routing_table/table.rs: RoutingTable::new", "src/tracker/tracker_manager.rs: manage_http_tracker", "src/dht/connection/connection_manager.rs: manage_udp"]}
{"id": "C131", "title": "Every start begins with a sound table of nodes that answered", "statement": "However often the program was started, with whatever torrents, peers and nodes, and however each session ended (also in the middle of storing the table), the next start loads a routing table that is as the program could have built it in one session, or an empty one, and every node in it has answered a query of this program, with the id the program still has, in one of the earlier sessions.", "quantifier": "all sequences of sessions, all histories and schedules of each, all crash points", "why_tests_cant": "unbounded sequences of sessions, crash points", "anchors": ["src/main.rs: main", "src/torrent_manager.rs: TorrentManager::spawn", "src/fs/mod.rs: FS::new", "src/dht/routing_table/table.rs: RoutingTable::new", "src/tracker/tracker_manager.rs: manage_http_tracker", "src/dht/connection/connection_manager.rs: manage_udp", "src/dht/routing_table/table.rs: store, try_loading_from_disk"]}
{"id": "C132", "title": "What a session has learnt about nodes is there in the next", "statement": "When a session ends, the next one starts with the own id and the nodes of the routing table as it was at the end of that session.", "quantifier": "all sequences of sessions, all histories and schedules of each, all crash points", "why_tests_cant": "unbounded sequences of sessions, crash points", "anchors": ["src/main.rs: main", "src/torrent_manager.rs: TorrentManager::spawn", "src/fs/mod.rs: FS::new", "src/dht/routing_table/table.rs: RoutingTable::new", "src/tracker/tracker_manager.rs: manage_http_tracker", "src/dht/connection/connection_manager.rs: manage_udp", "src/dht/routing_table/table.rs: store, try_loading_from_disk"]}
{"id": "C133", "title": "A started torrent is downloaded", "statement": "When the program is started with a torrent and connected peers offer its pieces, the pieces are requested from them, and every piece that arrives with the right hash is taken note of by the manager, so that it can be stored and is not requested again, until all are there.", "quantifier": "all torrent files and starts, all histories and schedules of all tasks of the program", "why_tests_cant": "all schedules, unbounded histories", "anchors": ["src/main.rs: main", "src/shutdown.rs", "src/dht/mod.rs: start_dht", "src/tracker/mod.rs", "src/torrent_manager.rs: start_client, spawn_tracker_managers", "src/torrent_manager.rs: handle_command_tmp", "src/peers/connection/pending_pieces.rs: set_owner_peer"]}
{"id": "C134", "title": "The announced port is forwarded to this machine", "statement": "Whenever the program announces a port, to a tracker or to a node of the DHT, the gateway forwards that TCP port to the program's port for peers on this machine, with a mapping that does not expire.", "quantifier": "all starts behind all gateways (any forwarded ports before, any ports opened), all torrent files, all histories and schedules of all tasks of the program", "why_tests_cant": "all histories and schedules, all answers of the environment", "anchors": ["src/gateway_device.rs: open_any_port", "src/main.rs: main", "src/torrent_manager.rs: start_client", "src/dht/mod.rs: start_dht"]}
{"id": "C135", "title": "A gateway is left as it was found", "statement": "When the program has ended, and when it did not start, the gateway forwards the ports it forwarded before, and no others.", "quantifier": "all sequences of starts, successful or not, behind all gateways", "why_tests_cant": "unbounded sequences of starts, failures in between", "anchors": ["src/gateway_device.rs: open_any_port", "src/main.rs: main", "src/torrent_manager.rs: start_client", "src/dht/mod.rs: start_dht"]}
{"id": "C124", "title": "A pause of the lookup does not hold up the DHT", "statement": "While the lookup for peers pauses between two rounds, datagrams are still taken from the socket, queries of other nodes are answered and queries of this program are sent.", "quantifier": "all histories of the program, all answers of other nodes and the times at which they come, all pauses", "why_tests_cant": "depends on the number of late answers and on the queue between the tasks, over unbounded histories; the pauses last up to minutes", "anchors": ["src/dht/peer_fetcher.rs: periodically_fetch_peers", "src/dht/connection/connection_handle.rs: QueryingConnection::clone", "src/dht/connection/connection_manager.rs: handle_resp"]}
{"id": "C136", "title": "What the DHT sends can be carried and read", "statement": "Whatever datagrams arrive, every datagram the DHT sends is within what UDP can carry (it has at most 4416 bytes); its queries have at most 98 bytes, or 128 more than the token in them; its answers have at most 1816 bytes more than the transaction id of the query, and an answer to another instance of this program fits its receive buffer of 2600 bytes.", "quantifier": "all histories and schedules of all tasks of the program, all datagrams received", "why_tests_cant": "adversarial input: other nodes choose transaction ids and tokens, and how many nodes and peers are known", "anchors": ["src/dht/connection/connection_manager.rs: manage_udp, send", "src/dht/krpc_message.rs: into_bytes, rand_tid", "src/dht/dht_manager.rs: process_query, find_peers", "src/dht/routing_table/table.rs: find_node", "src/peers/active_peers.rs: get_good_peers"]}
{"id": "C137", "title": "DHT packets are within the packet size", "statement": "Every datagram the DHT sends has at most 1300 bytes, the packet size by which the program limits the number of peers in an answer.", "quantifier": "all histories and schedules of all tasks of the program, all datagrams received", "why_tests_cant": "depends on how many peers are known and what other nodes send", "anchors": ["src/dht/connection/connection_handle.rs: DHT_MTU", "src/dht/dht_manager.rs: find_peers", "src/dht/krpc_message.rs: into_bytes, get_peers_resp"]}
{"id": "C138", "title": "A piece that could not be written is not taken as written", "statement": "When writing a piece reports success, all its bytes get to the files; if the operating system cannot write some of them, an error is reported for that piece.", "quantifier": "all torrents that can be stored, all devices (any writes may fail, at any byte, and the background writes may take any time), all histories of reads and writes", "why_tests_cant": "failures of the device at any point, all histories", "anchors": ["src/fs/mod.rs: FS::new, read_block, write_piece", "src/fs/single_file_rw.rs", "src/fs/multi_file_rw.rs", "src/fs/file_cache.rs"]}
{"id": "C139", "title": "What was written can be read, whichever files have been closed meanwhile", "statement": "When a piece has been written with success, its bytes can be read back at once, and when all pieces are written the files get the contents of the torrent, however long background writes take and whichever file handles the cache closes.", "quantifier": "all torrents that can be stored, with any number of files, all delays of background writes, all histories of reads and writes", "why_tests_cant": "depends on the timing of background threads and on which handles are closed, over unbounded histories", "anchors": ["src/fs/mod.rs: FS::new, read_block, write_piece", "src/fs/single_file_rw.rs", "src/fs/multi_file_rw.rs", "src/fs/file_cache.rs"]}
{"id": "C140", "title": "The program survives errors of its UDP socket", "statement": "When the operating system refuses to send a datagram or reports an error on reading from the socket, the program goes on: its tasks for the DHT keep working, the download and the trackers are not affected, Ctrl-C still ends it in order and the routing table is written.", "quantifier": "all histories and schedules of all tasks of the program, with an error at any sending and any reading", "why_tests_cant": "errors of the operating system at any point, all schedules", "anchors": ["src/dht/connection/connection_manager.rs: manage_udp, send", "src/dht/dht_manager.rs: dht", "src/dht/connection/connection_handle.rs: recv, send_query", "src/main.rs: main"]}
{"id": "C141", "title": "What is said to a peer reaches it, in order and once", "statement": "Whatever calls are made on the connection handle, for whatever peers, and however the tasks of the connections run: a call for a peer reports success only if there is a connection to that peer that has not ended; the bytes written to a connection are the messages of the successful calls and of its downloader, in order and each once, without anything else in between; and a client of the same kind at the other end handles exactly these messages.", "quantifier": "all histories of calls and of the tasks of all connections, all ways the stream is cut", "why_tests_cant": "all schedules, unbounded histories", "anchors": ["src/peers/connection/connection_handle.rs: connect, disconnect, choke, interested, have, bitfield, piece, cancel, port, send_message", "src/peers/connection/connection_manager.rs: manager_sender, manage_tcp"]}
{"id": "C142", "title": "A message that was taken is written", "statement": "When a call on the connection handle reports that a message was taken for a peer, the message is written to that peer, unless the connection ends first.", "quantifier": "all histories of calls and of the tasks of all connections", "why_tests_cant": "failures at any point of unbounded histories", "anchors": ["src/peers/connection/connection_handle.rs: connect, disconnect, choke, interested, have, bitfield, piece, cancel, port, send_message", "src/peers/connection/connection_manager.rs: manager_sender, manage_tcp"]}
{"id": "C143", "title": "Peers are told what the client wants and has", "statement": "A peer that has a missing piece is told that the client is interested, peers are told of completed pieces and can get blocks of them, and a connection on which nothing else is sent gets a keep-alive message at least every two minutes.", "quantifier": "all torrent files and starts, all histories and schedules of all tasks of the program", "why_tests_cant": "all schedules, unbounded histories", "anchors": ["src/peers/connection/connection_handle.rs: connect, disconnect, choke, interested, have, bitfield, piece, cancel, port, send_message", "src/peers/connection/connection_manager.rs: manager_sender, manage_tcp", "src/peers/connection/connection_manager.rs: _keep_alive_sender", "src/torrent_manager.rs: handle_command_tmp"]}
{"id": "C144", "title": "Memory of the piece hashes is given back as it was taken", "statement": "The list of piece hashes that is made from the string of a torrent file without copying is a sound vector (it has the same bytes and lies in one block of exactly its size), and dropping it frees exactly that block.", "quantifier": "all strings of hashes, in vectors of any capacity, and all states of the heap", "why_tests_cant": "undefined behaviour need not show in a test; any length and capacity", "anchors": ["src/transcoding/metainfo.rs: deserialize_pieces_field"]}
{"id": "C145", "title": "A token is good for a limited time", "statement": "A token that was handed out with an answer to get_peers can be used for an announcement only from the address it was given to, and only for a limited time (BEP 5: about ten minutes).", "quantifier": "all histories of the DHT socket, any time between the answer and the announcement, all sessions", "why_tests_cant": "unbounded histories between handing out and use", "anchors": ["src/dht/connection/connection_manager.rs: ConnectionManager::spawn, send, token_is_valid", "src/data_structures/id.rs: ID::hash_with_secret"]}
{"id": "C146", "title": "The own node is not taken for another", "statement": "The routing table never lists a node with the own id, so nobody is told another address for it.", "quantifier": "all histories of the table task, all sessions of the program, all answers of other nodes", "why_tests_cant": "unbounded histories, arbitrary answers", "anchors": ["src/dht/routing_table/table.rs: touch_node, find_node", "src/dht/dht_manager.rs: process_resp"]}
{"id": "C147", "title": "Every query of another node is answered", "statement": "Every DHT query of another node that is taken from the socket is answered sooner or later: as many answers go to the address it came from, with its transaction id and of its kind, as there were queries; only queries to which there is nothing to say and announcements with a wrong token get no answer.", "quantifier": "all executions of the whole program, finite or not, in which no task is passed over for ever; all datagrams, peers and trackers", "why_tests_cant": "liveness over unbounded executions and all interleavings of the tasks", "anchors": ["src/dht/connection/connection_manager.rs: manage_udp, handle_query", "src/dht/dht_manager.rs: dht, process_query", "src/dht/connection/connection_handle.rs: send, recv"]}
{"id": "C148", "title": "Everything a peer says is heard", "statement": "Every message a peer has sent is heard sooner or later: what was read from the connection is recognised completely and handed over, and what was handed over is taken, in order, by the torrent manager, by the downloader of the peer (blocks) or by the DHT (ports), whatever the other peers send meanwhile.", "quantifier": "all executions of the whole program, finite or not, in which no task is passed over for ever; all bytes of all peers, all chunkings", "why_tests_cant": "liveness over unbounded executions and all interleavings of the tasks", "anchors": ["src/peers/connection/connection_manager.rs: manager_receiver, handle_message", "src/torrent_manager.rs: manage", "src/peers/connection/downloader.rs: manage", "src/dht/dht_manager.rs: dht"]}
{"id": "C149", "title": "Every tracker is asked again and again", "statement": "As long as Ctrl-C is not pressed, every HTTP tracker of the torrent file is asked again and again, for this torrent and with the peer id and the port of this program, whatever it and the other trackers answered before and whatever became of the other tasks; only while there is no connection to it does a request fail unsent, and then another is tried.", "quantifier": "all executions of the whole program, finite or not, in which no request and no pause of the tracker's task lasts for ever; all answers of trackers, all peers and nodes", "why_tests_cant": "liveness over unbounded executions and all interleavings of the tasks", "anchors": ["src/tracker/tracker_manager.rs: spawn_tracker_managers, manage_http_tracker, contact_tracker, send_request"]}
{"id": "C150", "title": "The table of peers stays usable", "statement": "No call on the table of peers that all tasks share panics while it holds the lock of the table, so the lock is never poisoned and every task can go on using it.", "quantifier": "all contents of the table, all calls, limits and reports", "why_tests_cant": "all histories that lead to the contents, all limits", "anchors": ["src/peers/active_peers.rs: insert, extend, get_good_peers, enough_peers, return_batch_of_bad_peers_and_get_new_batch, activate_peers_in_locked_data"]}
{"id": "C151", "title": "The client finds its way into the DHT", "statement": "After every start the client gets into touch with the DHT: it asks every node known from earlier sessions, every node that a peer or another node tells of, and, if there is none, a node it can always begin with; and once any node has answered, it looks for the peers of the torrent.", "quantifier": "all executions of the whole program, finite or not, in which no task is passed over for ever; all stored tables, all behaviour of nodes, peers and trackers", "why_tests_cant": "liveness over unbounded executions and all interleavings of the tasks; what never happens cannot be observed", "anchors": ["src/dht/dht_manager.rs: dht, process_resp, ping_unknown_nodes", "src/dht/peer_fetcher.rs: spawn_fetcher", "src/dht/mod.rs: start_dht", "src/dht/routing_table/table.rs: RoutingTable::new"]}
{"id": "C152", "title": "A peer is announced under the port where it can be reached", "statement": "An announcement with a valid token makes known the peer it is about: with the IP address it came from and the port it names, or, if it says that the port is implied, the port it came from.", "quantifier": "all histories of commands and datagrams; all announcements as BEP 5 defines them, with any further keys and trailing bytes", "why_tests_cant": "all dictionaries, ports, senders and histories; the repository's own test of such a message only looks at the decoded fields", "anchors": ["src/dht/connection/connection_manager.rs: handle_query", "src/dht/krpc_message.rs: Arguments::AnnouncePeer"]}
{"id": "C153", "title": "What cannot be answered is refused with an error", "statement": "A query that the client does not understand or does not accept (unknown method, missing arguments, wrong token) has no effect but an error message of BEP 5 with the query's transaction id to the sender.", "quantifier": "all histories of the program; all datagrams", "why_tests_cant": "that a message is never sent is a statement about all histories; all methods and arguments", "anchors": ["src/dht/connection/connection_manager.rs: handle_received_message, handle_query, send", "src/dht/krpc_message.rs: Message::Error, Message::from_bytes"]}
{"id": "C154", "title": "Handing out blocks while the clock runs", "statement": "Whether a request is older than 7 s is decided with a new reading of the clock for each block. Whatever these readings are, a call hands out only blocks of the asked pieces that nobody was asked for or whose request was more than 7 s old when it was looked at, and (unless the buffer is exactly full) all of them; no later call that looks at a block within 7 s of the beginning of the call that handed it out hands it out again, unless the assignment was cancelled; and a call that lasts no longer than 7 s hands out no block twice.", "quantifier": "all histories of calls, all readings of the clock during each call, all buffer sizes", "why_tests_cant": "all timings of the readings within a call, all histories and interleavings", "anchors": ["src/peers/connection/pending_pieces.rs: take_not_good_blocks, filtered_iter_over_blocks, Block::is_expired_pending"]}
{"id": "C155", "title": "The routing table while the clock runs", "statement": "Whether a node is good is decided with a new reading of the clock for each node that is looked at. Whatever these readings are, the table keeps its shape and a sighting never crashes. If all readings of a call lie between two instants, then a sighting loses no node that is still good at the later one, displaces at most one node, and refuses an unknown node only if the bucket responsible for it holds eight nodes that were all good at the earlier one; a query for the closest nodes returns only nodes that were good at the earlier instant, and leaves out a node that is still good at the later one only if at least eight others are returned, none of a farther class; and the number of good nodes that is counted lies between the numbers at the two instants.", "quantifier": "all histories of sightings and restarts, all readings of the clock during each call, all ids", "why_tests_cant": "all timings of the readings within a call, all histories", "anchors": ["src/dht/routing_table/bucket.rs: Node::is_some_and_good, Bucket::find_replaceable_node_idx, Bucket::try_insert, Bucket::iter_over_goods", "src/dht/routing_table/table.rs: RoutingTable::touch_node, insert_new_good, get_closest_nodes, count_good_nodes"]}
{"id": "C156", "title": "A failed creation of the directories leaves no trace", "statement": "Whenever the directories of a torrent cannot all be created, whichever call of the operating system fails and wherever the removal of what was created stops, the start fails, everything outside the torrent's directory is as before, and nothing is left of that directory, so that the client can be started again. If it succeeds, exactly the torrent's directory and the proper ancestors of its files were added.", "quantifier": "all file trees, all disk contents, any hash-set order, any failing call, any point at which the removal stops", "why_tests_cant": "failures of the operating system at arbitrary points", "anchors": ["src/fs/multi_file_rw.rs: dir_builder::create_dirs, build_dir_tree", "src/fs/multi_file_rw.rs: MultiFileRw::new"]}
{"id": "C157", "title": "The task that owns the routing table while the clock runs", "statement": "A turn of the task that owns the routing table may take any time, because it waits whenever the queue of the connection is full, and it reads the clock for every node it looks at. Whatever these readings are: nothing that is sent to the task makes it panic; no node is lost that is still good at the end of the turn, and every stored node was there at the start or answered from its address; a refresh asks only nodes that were good when the turn began, none farther from the id asked for than a node still good at its end, and asks for every bucket that was not full of good nodes at the beginning if a node is still good at the end; a find_node query is answered with the node asked for or with nodes that were good when the turn began; the lookups are started at most once, with nodes that were good when the turn began, and have been started at the end of every turn at which a stored node is still good. A get_peers query is answered exactly once with the peers announced for the torrent or known of it, up to 216 of them, and if there are none like a find_node query; a node that answers is stored with a time of the turn unless its bucket is full of nodes that were good when the turn began; the nodes it names that are not stored are pinged, and so is the node whose port a peer tells; between the end of a turn and a refresh there is at least the pause.", "quantifier": "all histories of the task, all durations of the turns and all readings of the clock during each of them", "why_tests_cant": "all timings of the readings, all histories", "anchors": ["src/dht/dht_manager.rs: dht, refresh_table, process_query, process_resp", "src/dht/routing_table/table.rs: RoutingTable::find_node, iter_over_ids_within_fillable_buckets, count_good_nodes", "src/dht/peer_fetcher.rs: spawn_fetcher"]}
{"id": "C158", "title": "The text of an id", "statement": "Writing an id to a log never fails. The text has 63 characters; it begins with the first sixteen bits of the id, the most significant first, in two groups of eight, and then has all twenty bytes as hexadecimal digits, so that the id can be read back from the text and two ids have the same text only if they are equal.", "quantifier": "all ids", "why_tests_cant": "2^160 ids", "anchors": ["src/data_structures/id.rs: impl fmt::Debug for ID"]}
{"id": "C159", "title": "A task that is not busy responds to whatever it waits for", "statement": "In the program every task that is not in the middle of a turn responds to each thing it waits for as it would if it were alone: the table task to its timer, to a node told by a peer, to a query or an answer in its queue, to the loss of the connection and to the shutdown signal; the socket task to every datagram and command; the lookup task to its timers and to an answer; a tracker's task to its timers, to an answer or a failure and to the signal; the torrent side to everything it waits for. Nothing else stands in the way of a task.", "quantifier": "all states of the program, all events", "why_tests_cant": "all states and all combinations of tasks", "anchors": ["src/main.rs: main", "src/dht/dht_manager.rs: dht", "src/dht/connection/connection_manager.rs: manage_udp", "src/dht/peer_fetcher.rs: spawn_fetcher", "src/tracker/tracker_manager.rs"]}
