{"id": "C01", "title": "read_bits returns exactly the next n bits", "statement": "Reading n bits (0..8) at bit position r returns the unsigned big-endian value of bits r..r+n of the buffer and advances the read position by n; if fewer than n bits remain it returns None and changes nothing. The bytes are never altered.", "quantifier": "every byte content, every read position (aligned or not), every n in 0..8", "why_tests_cant": "the value depends on all byte contents and all 8x9 alignments; examples cover a handful", "anchors": ["src/shared/buffer/buffer.rs: BitsBuf::read_bits"]}
{"id": "C02", "title": "write_bits writes exactly the next n bits and nothing else", "statement": "Writing n bits (1..8) at bit position w makes bits w..w+n equal to the low n bits of the argument (most significant first), leaves every other bit of the buffer as it was, advances the write position by n and grows the length only when writing past the end.", "quantifier": "every buffer content, write position, value, n in 1..8", "why_tests_cant": "overwriting in the middle (used to patch the header) must not disturb neighbours at any alignment", "anchors": ["src/shared/buffer/buffer.rs: BitsBuf::write_bits"]}
{"id": "C03", "title": "Bit buffer operations panic only on contract violations", "statement": "Starting from new()/from_raw_bytes and applying any sequence of buffer operations, a panic happens only when n>8 (read), n=0 or n>8 (write), or a position beyond the end is set; no out-of-bounds index or arithmetic underflow is reachable, and positions never exceed the length.", "quantifier": "every sequence of buffer operations with any arguments", "why_tests_cant": "needs an invariant over arbitrary operation histories", "anchors": ["src/shared/buffer/buffer.rs: BitsBuf"]}
{"id": "C04", "title": "Write-then-read returns the written fields", "statement": "Any sequence of fields (bit groups, u8, u16, u32, byte strings) appended to an empty buffer and read back with the same widths yields the same values (masked to the width), in order; multi-byte integers are big-endian on the wire.", "quantifier": "every sequence of typed fields of any length", "why_tests_cant": "field sequences are unbounded and cross byte boundaries in every way", "anchors": ["src/shared/buffer/buffer.rs: write_bits/u8/u16/u32/bytes, read_*"]}
{"id": "C05", "title": "truncate keeps a prefix and clears the tail", "statement": "truncate(len) keeps the first len bits unchanged, drops all others, zeroes the padding bits of the last byte, clamps positions, and is a no-op when len is at or beyond the end.", "quantifier": "every buffer content and every len", "why_tests_cant": "bit-level boundary cases at every alignment", "anchors": ["src/shared/buffer/buffer.rs: BitsBuf::truncate"]}
{"id": "C06", "title": "Name construction accepts exactly the well-formed absolute names", "statement": "Name::from_string(s) succeeds iff s is \".\" or s is at most 255 bytes, ends with a dot and each dot-separated label before it is non-empty, contains only ASCII letters, digits and '-', and starts and ends with a letter or digit; the name keeps the string unchanged.", "quantifier": "every string", "why_tests_cant": "infinite input space; character classes and dot positions interact", "anchors": ["src/shared/dns/name.rs: Name::from_string, validate_name, validate_label"]}
{"id": "C07", "title": "Every name can be put on the wire: labels are at most 63 octets", "statement": "Every name accepted by from_string has labels of at most 63 octets, so that its encoding is a legal sequence of labels.", "quantifier": "every string accepted as a name", "why_tests_cant": "needs a universal claim about all accepted names", "anchors": ["src/shared/dns/name.rs: validate_name, validate_label, to_bytes"]}
{"id": "C08", "title": "Decoding a name from the wire always terminates", "statement": "Name::from_bytes returns after a number of steps bounded by a function of nothing but the limits of the code (jumps and name length), for any bytes including pointer loops.", "quantifier": "every byte string and start position", "why_tests_cant": "adversarial pointer graphs are unbounded", "anchors": ["src/shared/dns/name.rs: Name::from_bytes"]}
{"id": "C09", "title": "Decoding a name from the wire never panics", "statement": "Name::from_bytes on arbitrary bytes returns a name or an error, never a panic.", "quantifier": "every byte string and start position", "why_tests_cant": "adversarial inputs", "anchors": ["src/shared/dns/name.rs: Name::from_bytes", "src/shared/buffer/buffer.rs: set_read_pos"]}
{"id": "C10", "title": "Names decoded from the wire are valid and the cursor is left right after them", "statement": "If Name::from_bytes succeeds the result satisfies the same validity predicate as from_string, and the read position is just after the terminating zero octet or just after the first compression pointer, never before the start.", "quantifier": "every byte string and start position", "why_tests_cant": "must hold for all pointer structures", "anchors": ["src/shared/dns/name.rs: Name::from_bytes"]}
{"id": "C11", "title": "Name wire round trip", "statement": "For every valid name whose labels are at most 63 octets, to_bytes is the RFC 1035 encoding (length-prefixed labels ended by one zero octet), and from_bytes of it, at any offset of any message, returns the same name and consumes exactly those bytes.", "quantifier": "every valid name, every surrounding message", "why_tests_cant": "all names times all contexts", "anchors": ["src/shared/dns/name.rs: to_bytes, from_bytes"]}
{"id": "C12", "title": "is_in_zone is label-suffix containment", "statement": "n.is_in_zone(z) holds iff the label list of z is a suffix of the label list of n (z is n or an ancestor of n); in particular it is reflexive, transitive and never confuses string suffixes with label suffixes.", "quantifier": "every pair of valid names", "why_tests_cant": "quantifies over all pairs of names", "anchors": ["src/shared/dns/name.rs: is_in_zone, is_only_in_auth_zone"]}
{"id": "C13", "title": "Name matching ignores letter case", "statement": "Two names differing only in ASCII letter case are treated as the same node by zone membership and by zone lookups.", "quantifier": "every pair of names equal up to ASCII case", "why_tests_cant": "all names", "anchors": ["src/shared/dns/name.rs: derive(PartialEq), is_in_zone", "src/nameserver/zones/parser.rs: Zone::get"]}
{"id": "C14", "title": "Compression pointers reach every legal offset", "statement": "A pointer to any offset (0..16383) at which a complete uncompressed name is stored decodes to that name.", "quantifier": "every message, every target offset up to 16383", "why_tests_cant": "offset arithmetic overflow shows only in some ranges", "anchors": ["src/shared/dns/name.rs: Name::from_bytes"]}
{"id": "C15", "title": "Code tables are consistent", "statement": "For record types, classes, op codes and response codes, decoding the number produced for a value gives the value back, decoding fails exactly on numbers not produced by any value, and textual names of types round trip.", "quantifier": "every value and every 16-bit (8-bit) number, every string", "why_tests_cant": "all numbers and strings", "anchors": ["src/shared/dns/types.rs: RecordType", "src/shared/dns/class.rs: Class", "src/shared/dns/header.rs: OpCode, RespCode"]}
{"id": "C16", "title": "Header layout and round trip", "statement": "A header with the supported op code encodes to exactly the 12 bytes laid out in RFC 1035 4.1.1 and decoding these bytes returns the same header (z taken modulo 8); decoding any 12+ bytes reads exactly the first 12 and fails only on unknown op/response codes; shorter inputs give BytesEnd or an unknown-code error.", "quantifier": "every header and every byte string", "why_tests_cant": "12-byte space; bit packing", "anchors": ["src/shared/dns/header.rs: Header::encode_to_buf, decode_from_buf"]}
{"id": "C17", "title": "Question round trip", "statement": "Every supported question encodes to name, type, class and decodes back to itself anywhere inside a message, consuming exactly its bytes.", "quantifier": "every question with an encodable name, every surrounding message", "why_tests_cant": "all names/types", "anchors": ["src/shared/dns/questions.rs: Question"]}
{"id": "C18", "title": "Record round trip", "statement": "Every A, NS, CNAME, SOA, PTR, HINFO, MX record with encodable names and strings decodes back to the same record anywhere inside a message, consuming exactly its bytes, with data_len equal to the wire RDLENGTH.", "quantifier": "every record, every surrounding message", "why_tests_cant": "all names, strings and values", "anchors": ["src/shared/dns/records.rs: Record::encode_to_buf, decode_from_buf"]}
{"id": "C19", "title": "TXT record round trip", "statement": "A TXT record written by the encoder decodes back to the same strings.", "quantifier": "every list of character strings", "why_tests_cant": "all lists of strings", "anchors": ["src/shared/dns/records.rs: decode_txt_data, encode_txt_data"]}
{"id": "C20", "title": "WKS record round trip and port bitmap", "statement": "A WKS record written by the encoder decodes back to the same protocol and ports; decoding a WKS bitmap terminates and yields the ports whose bits are set.", "quantifier": "every WKS record / bitmap", "why_tests_cant": "all bitmaps", "anchors": ["src/shared/dns/records.rs: encode_wks_data, decode_wks_data, parse_wks_ports"]}
{"id": "C21", "title": "Message round trip", "statement": "A message whose counts match its sections and whose items round trip is encoded to bytes that decode to the same message.", "quantifier": "every message", "why_tests_cant": "unbounded sections", "anchors": ["src/shared/dns/message.rs: encode_to_bytes, decode_from_bytes"]}
{"id": "C22", "title": "Decoding a message never panics or hangs", "statement": "Message::decode_from_bytes on arbitrary network bytes returns a message or an error.", "quantifier": "every byte string", "why_tests_cant": "adversarial inputs", "anchors": ["src/shared/dns/message.rs: decode_from_bytes", "src/shared/dns/records.rs: decode_*_data", "src/shared/dns/name.rs: from_bytes"]}
{"id": "C23", "title": "Decoded RDATA length matches RDLENGTH", "statement": "If a record decodes successfully, the number of bytes consumed by its RDATA equals the RDLENGTH field on the wire and the data_len of the record.", "quantifier": "every byte string", "why_tests_cant": "adversarial inputs", "anchors": ["src/shared/dns/records.rs: decode_*_data"]}
{"id": "C24", "title": "Unknown-type items are skipped without disturbing the others", "statement": "Inserting a well-formed question or record of a type the library does not know anywhere in a message leaves the decoded known questions and records unchanged (only the header count differs).", "quantifier": "every message, every insertion point, every unknown type number and data", "why_tests_cant": "all insertion points and contents", "anchors": ["src/shared/dns/message.rs: decode_from_bytes", "src/shared/dns/records.rs: decode_record_type", "src/shared/dns/questions.rs: decode_record_type"]}
{"id": "C25", "title": "UDP encoding never exceeds 512 bytes", "statement": "encode_to_bytes_trunc returns at least 12 and at most 512 bytes whenever it succeeds.", "quantifier": "every message", "why_tests_cant": "unbounded messages", "anchors": ["src/shared/dns/message.rs: encode_to_bytes_trunc"]}
{"id": "C26", "title": "Truncation drops only a suffix and says so", "statement": "The output of encode_to_bytes_trunc is a header followed by the encodings of a maximal prefix of the message's items (questions, answers, authorities, additionals in order); the header counts are exactly the numbers of items kept, TC is set if anything was dropped and is otherwise the header's own flag; all other header fields are unchanged.", "quantifier": "every message", "why_tests_cant": "boundary at 512 falls at any item", "anchors": ["src/shared/dns/message.rs: encode_to_bytes_trunc"]}
{"id": "C27", "title": "Truncated output is a decodable prefix of the message", "statement": "Decoding the output of encode_to_bytes_trunc yields a message whose sections are prefixes of the original sections, jointly cut at one point.", "quantifier": "every message with round-tripping items", "why_tests_cant": "all cut points", "anchors": ["src/shared/dns/message.rs: encode_to_bytes_trunc, decode_from_bytes"]}
{"id": "C28", "title": "Encoders write the correct RDLENGTH", "statement": "In the encoding of every record the 16-bit RDLENGTH field equals the number of RDATA bytes that follow.", "quantifier": "every record", "why_tests_cant": "all record contents", "anchors": ["src/shared/dns/records.rs: encode_*_data"]}
{"id": "C29", "title": "TCP framing", "statement": "A TCP reply is the 2-byte big-endian length of the encoded message followed by exactly that many bytes, and the TCP reader consumes exactly the declared number of bytes of the stream, whatever follows.", "quantifier": "every message and every stream", "why_tests_cant": "all message sizes including above 65535", "anchors": ["src/shared/net/tcp_server.rs: TcpRequest::read, TcpResponse::reply"]}
{"id": "C30", "title": "Requests are classified the same way over UDP and TCP", "statement": "Given the same message bytes, the UDP and TCP readers hand the same value to the handler: the message if it decodes, the header plus error if only the header decodes, a parse error otherwise; I/O errors never surface as parsed messages.", "quantifier": "every byte string / stream", "why_tests_cant": "all inputs", "anchors": ["src/shared/net/udp_server.rs: UdpRequest::read", "src/shared/net/tcp_server.rs: TcpRequest::read"]}
{"id": "C31", "title": "Thread pool runs each job at most once, in FIFO start order", "statement": "In every execution, every submitted job is started at most once, jobs start in submission order, and never more jobs run at once than there are workers.", "quantifier": "every schedule of submitters and workers, every pool size, jobs may panic", "why_tests_cant": "interleavings", "anchors": ["src/shared/thread_pool.rs: ThreadPool, Worker"]}
{"id": "C32", "title": "Dropping the pool waits for all submitted jobs", "statement": "If no job panics, when drop returns every job submitted before has run to completion and all workers have stopped.", "quantifier": "every schedule and every number of jobs", "why_tests_cant": "interleavings", "anchors": ["src/shared/thread_pool.rs: Drop for ThreadPool"]}
{"id": "C33", "title": "The pool keeps its workers when jobs panic", "statement": "A panicking job does not reduce the number of workers available for later jobs and does not make later submissions or drop panic.", "quantifier": "every schedule in which some jobs panic", "why_tests_cant": "interleavings", "anchors": ["src/shared/thread_pool.rs: Worker::new, execute, drop"]}
{"id": "C34", "title": "The pool never deadlocks and drains its queue", "statement": "In every reachable state with a queued job and at least one live worker some step is possible, and running enough worker steps starts every queued job (provided jobs terminate).", "quantifier": "every reachable state", "why_tests_cant": "interleavings", "anchors": ["src/shared/thread_pool.rs: Worker::new"]}
{"id": "C35", "title": "Zone store returns exactly what was inserted", "statement": "After any sequence of insert and extend operations, get(node,type) returns exactly the records inserted for this node and type, in insertion order, get_all_of_type returns all and only the records of that type, and iteration order of the hash map in extend does not influence either result.", "quantifier": "every operation sequence and every iteration order", "why_tests_cant": "histories and hash orders", "anchors": ["src/nameserver/zones/parser.rs: Zone"]}
{"id": "C36", "title": "Loaded authoritative records are in the zone, of class IN and above the minimum TTL", "statement": "If parsing an authoritative zone file (with any included files) succeeds, exactly one SOA record exists at the zone apex, every record's class is IN, every TTL is at least the SOA minimum, and every record owner is in the zone and not in a configured sub zone.", "quantifier": "every zone file, include tree and configuration", "why_tests_cant": "unbounded files", "anchors": ["src/nameserver/zones/parser_auth.rs: parse_auth_zone_file, parse_record, parse_starting_soa_record"]}
{"id": "C37", "title": "A successfully loaded zone set is consistent", "statement": "If loading succeeds: the authoritative zone has NS records, all at the apex; every sub zone is strictly configured with NS records at its apex, only NS and A records, every in-zone name server of a sub zone that lies inside a sub zone has a glue A record there, and no stray A record exists.", "quantifier": "every set of zone files and configurations", "why_tests_cant": "unbounded files", "anchors": ["src/nameserver/zones/parser.rs: parse_zone_files, validate_auth_zone, validate_subzone", "src/nameserver/zones/parser_sub.rs: parse_sub_zone_file"]}
{"id": "C38", "title": "The zone loader never panics", "statement": "Loading any zone file reports an error or succeeds; it does not panic.", "quantifier": "every file content", "why_tests_cant": "adversarial files", "anchors": ["src/nameserver/zones/tokens.rs: Tokenizer", "src/nameserver/zones/parser_auth.rs", "src/nameserver/zones/parser_sub.rs"]}
{"id": "C39", "title": "The zone loader always terminates", "statement": "Loading any finite set of zone files terminates.", "quantifier": "every finite set of files", "why_tests_cant": "adversarial files (include cycles, odd whitespace)", "anchors": ["src/nameserver/zones/parser_auth.rs: parse_included_file, parse_txt_record", "src/nameserver/zones/utils.rs: discard_strings_until_newline", "src/nameserver/zones/tokens.rs: Tokenizer::next"]}
{"id": "C40", "title": "Tokenizer comments, parentheses and peeking", "statement": "Comments never influence tokens, a parenthesised group yields the same tokens (blanks aside) as the group on one line, and peeking does not change what later calls return.", "quantifier": "every file content", "why_tests_cant": "all inputs", "anchors": ["src/nameserver/zones/tokens.rs: Tokenizer::next, peek, process_comment, process_multi_line"]}
{"id": "C41", "title": "Record lines mean what they say", "statement": "A resource record line with relative or absolute names yields the record whose relative names are completed with the current origin, '@' and blank owners meaning the origin.", "quantifier": "every line of the supported grammar, origin and TTL state", "why_tests_cant": "all names and values", "anchors": ["src/nameserver/zones/parser_auth.rs: parse_record, parse_*_record", "src/nameserver/zones/utils.rs: adjust_name"]}
{"id": "C42", "title": "TTL and class are optional and order-independent", "statement": "The TTL and class fields of a record line are both optional and may come in either order; class defaults to IN, TTL to the last stated TTL.", "quantifier": "every TTL, class and both orders", "why_tests_cant": "all values", "anchors": ["src/nameserver/zones/utils.rs: parse_ttl_class", "src/nameserver/zones/parser_auth.rs: parse_record"]}
{"id": "C43", "title": "$INCLUDE does not leak state into the including file", "statement": "Origin and TTL changes made inside an included file do not affect the lines after the $INCLUDE in the including file; included records are merged with the others.", "quantifier": "every include file and parent state", "why_tests_cant": "all files", "anchors": ["src/nameserver/zones/parser_auth.rs: parse_included_file, parse_entries"]}
{"id": "C44", "title": "Every loaded record can be served", "statement": "Every record accepted by the zone loader is encoded without error or panic when it is put into a response.", "quantifier": "every zone file", "why_tests_cant": "all files", "anchors": ["src/nameserver/zones/parser_auth.rs: parse_txt_record, parse_hinfo_record", "src/shared/dns/utils.rs: encode_character_string", "src/shared/net/udp_server.rs: UdpResponse::reply"]}
{"id": "C45", "title": "Names outside the authoritative zone are refused", "statement": "A well-formed query for a name not inside the authoritative zone gets exactly one reply with code REFUSED and no records; a query for a name inside never gets REFUSED.", "quantifier": "every zone configuration and query", "why_tests_cant": "all names", "anchors": ["src/nameserver/handler.rs: handle_query, handle_err"]}
{"id": "C46", "title": "Authoritative answers are exactly the zone's record set", "statement": "A query for a name in the authoritative zone and in no sub zone, for which records of the type exist, gets NOERROR with AA set and the answer section equal to the records of that name and type loaded from the zone file.", "quantifier": "every loaded zone set and query", "why_tests_cant": "all zones", "anchors": ["src/nameserver/handler.rs: handle_auth_zone"]}
{"id": "C47", "title": "Delegated names get a referral", "statement": "A query for a name inside a configured sub zone gets a reply with empty answer, authority equal to the NS records at the sub zone's apex and additional equal to the A records of these name servers found in sub zones that contain them.", "quantifier": "every loaded zone set and query", "why_tests_cant": "all zones", "anchors": ["src/nameserver/handler.rs: handle_subzone, search_a_additionals_for_subzone_ns"]}
{"id": "C48", "title": "NXDOMAIN means the name does not exist", "statement": "NXDOMAIN is returned exactly when no record of any type exists at the queried name (or below it), with the SOA in the authority section; an existing name without the queried type gets NOERROR with no answer.", "quantifier": "every loaded zone set and query", "why_tests_cant": "all zones", "anchors": ["src/nameserver/handler.rs: handle_auth_zone, handle_nx_err"]}
{"id": "C49", "title": "Response headers echo the request", "statement": "Every reply sent by the name server has the request's id, QR set, RA clear, op code and RD as in the request, section counts equal to the section sizes, and exactly the first question.", "quantifier": "every request", "why_tests_cant": "all requests", "anchors": ["src/nameserver/handler.rs: resp_header_from_req_header, handle_*"]}
{"id": "C50", "title": "The name server answers every request without panicking", "statement": "For any datagram that decodes to a request, handling it sends exactly one reply and does not panic.", "quantifier": "every datagram and loaded zone", "why_tests_cant": "adversarial datagrams", "anchors": ["src/nameserver/handler.rs: handle_dns_request"]}
{"id": "C51", "title": "Malformed requests get an error reply", "statement": "A request whose header decodes but whose body does not gets a FORMERR or NOTIMP reply with the same id.", "quantifier": "every datagram with decodable header and undecodable body", "why_tests_cant": "adversarial datagrams", "anchors": ["src/nameserver/handler.rs: handle_decode_err", "src/resolver/handler.rs: handle_decode_err"]}
{"id": "C52", "title": "End-to-end UDP answers", "statement": "For a query datagram for a record set in the authoritative zone and in no sub zone, the reply is one datagram of at most 512 bytes, it decodes (at any client) to a NOERROR authoritative response with the same id and question, and its answers are a prefix of the zone's record set, complete unless TC is set; TC is only set by the server if one more record would not fit.", "quantifier": "every loaded zone, query in no sub zone, and set of fewer than 65536 records that round-trip (no TXT, no WKS ports: C19, C20)", "why_tests_cant": "composition over all layers", "anchors": ["src/nameserver/handler.rs", "src/shared/net/udp_server.rs", "src/shared/dns/message.rs"]}
{"id": "C53", "title": "Cache lookups return the last unexpired set", "statement": "A lookup returns the value and expiry of the most recent set for this key if not removed since and if its expiry is still in the future, and nothing otherwise.", "quantifier": "every history of operations, any clock readings that do not go back", "why_tests_cant": "histories", "anchors": ["src/resolver/back_end/cache.rs: Cache::set, get_clone, on_found, remove"]}
{"id": "C54", "title": "Cache cleaning is unobservable", "statement": "Running clean at any points of a history changes no result of any later lookup, set or remove; after clean no expired entry is stored.", "quantifier": "every history and every placement of cleans", "why_tests_cant": "histories and schedules", "anchors": ["src/resolver/back_end/cache.rs: Cache::clean"]}
{"id": "C55", "title": "TTLs served from the cache never exceed what was stored and never outlive it", "statement": "Records served from the resolver's cache carry a TTL no larger than the remaining life of the entry and thus no larger than the TTL received minus elapsed time; entries are not served after their TTL elapsed.", "quantifier": "every clock reading and record set", "why_tests_cant": "all timings", "anchors": ["src/resolver/back_end/recursive.rs: search_records_in_cache, save_records_in_cache"]}
{"id": "C56", "title": "Concurrent cache operations are linearizable", "statement": "Any interleaving of cache operations by several threads gives the results of some sequential order of the same operations consistent with real time.", "quantifier": "every schedule", "why_tests_cant": "interleavings", "anchors": ["src/resolver/back_end/cache.rs: Cache"]}
{"id": "C57", "title": "extract_records partitions the records", "statement": "extract_records(records, kind, node) returns all and only the records with that type and owner and leaves exactly the others, losing and duplicating nothing.", "quantifier": "every list of records", "why_tests_cant": "all lists", "anchors": ["src/resolver/back_end/utils.rs: extract_records, extract_record"]}
{"id": "C58", "title": "Name servers with addresses are tried first", "statement": "sort_nameservers permutes the list, puts all servers with known addresses before those without, and keeps the relative order inside the two groups.", "quantifier": "every list of name servers", "why_tests_cant": "all lists", "anchors": ["src/resolver/back_end/utils.rs: sort_nameservers"]}
{"id": "C59", "title": "CNAME chasing is correct and bounded", "statement": "A successful lookup's answers begin with a chain of CNAME records, each owned by the previous target and the first owned by the queried name, at most the configured number long, followed by records of the queried type owned by the final name; cyclic chains end in an error.", "quantifier": "every cache state and server behaviour", "why_tests_cant": "adversarial servers", "anchors": ["src/resolver/back_end/recursive.rs: perform_inner, handle_cname", "src/resolver/back_end/utils.rs: detect_cname_loops"]}
{"id": "C60", "title": "Lookups always terminate", "statement": "Whatever the servers answer, a lookup terminates.", "quantifier": "every server behaviour (arbitrary bytes, any delay up to the time-out)", "why_tests_cant": "adversarial servers, unbounded recursion", "anchors": ["src/resolver/back_end/recursive.rs: perform_inner, query_nameservers_iteratively, resolve_ns_subquery"]}
{"id": "C61", "title": "Bounded work per step", "statement": "Each query step sends at most retries packets per server address and contacts at most max_ns_queried servers.", "quantifier": "every server behaviour", "why_tests_cant": "adversarial servers", "anchors": ["src/resolver/back_end/requests.rs: send_query_with_retries", "src/resolver/back_end/recursive.rs: query_nameservers_iteratively"]}
{"id": "C62", "title": "Referrals are only followed downwards", "statement": "A referral is followed only to a zone that is a proper descendant of the current zone and an ancestor of the queried name.", "quantifier": "every server response", "why_tests_cant": "adversarial servers", "anchors": ["src/resolver/back_end/requests.rs: extract_next_nss_for_subzone, is_nameserver_authority_a_subzone, is_nameserver_authoritative_over_node"]}
{"id": "C63", "title": "Out-of-bailiwick data is not cached", "statement": "Records cached from a server's referral concern only names inside the zone that server was asked about.", "quantifier": "every server response", "why_tests_cant": "adversarial servers", "anchors": ["src/resolver/back_end/recursive.rs: save_nss_in_cache", "src/resolver/back_end/requests.rs: extract_next_nss_for_subzone"]}
{"id": "C64", "title": "Lookups never panic", "statement": "Whatever the servers answer, a lookup returns a result or an error.", "quantifier": "every server behaviour", "why_tests_cant": "adversarial servers", "anchors": ["src/resolver/back_end/recursive.rs", "src/resolver/back_end/requests.rs: send_udp_packet"]}
{"id": "C65", "title": "Responses with another id are never used", "statement": "A reply datagram whose id differs from the query's id has no effect on the lookup other than a retry or an error.", "quantifier": "every datagram", "why_tests_cant": "adversarial packets", "anchors": ["src/resolver/back_end/requests.rs: send_query"]}
{"id": "C66", "title": "Negative answers come only from authoritative servers", "statement": "A lookup reports a non-existing domain only if a server answered the query for the current name with NXDOMAIN and the AA flag set.", "quantifier": "every server behaviour", "why_tests_cant": "adversarial servers", "anchors": ["src/resolver/back_end/requests.rs: perform_request", "src/resolver/back_end/recursive.rs: perform_inner"]}
{"id": "C67", "title": "Resolver response headers and outcome codes", "statement": "Every resolver reply has the request's id, QR and RA set, AA clear, the request's op code and RD flag, matching counts; NOERROR with the lookup's records on success, NXDOMAIN for a non-existing domain, SERVFAIL for failures.", "quantifier": "every request and lookup outcome", "why_tests_cant": "all requests", "anchors": ["src/resolver/handler.rs: handle_query, resp_header_from_req_header"]}
{"id": "C68", "title": "The resolver answers every client request without panicking", "statement": "For any datagram that decodes to a request, handling it sends exactly one reply and does not panic.", "quantifier": "every datagram", "why_tests_cant": "adversarial datagrams", "anchors": ["src/resolver/handler.rs: handle_request, validate_dns_request"]}
{"id": "C69", "title": "Name-server sub-lookups cannot recurse into themselves", "statement": "Along any chain of nested name-server lookups the delegated zones are pairwise distinct, and such lookups never follow CNAMEs.", "quantifier": "every server behaviour", "why_tests_cant": "adversarial servers", "anchors": ["src/resolver/back_end/recursive.rs: resolve_ns_subquery", "src/resolver/back_end/utils.rs: detect_zones_loop"]}
{"id": "C70", "title": "Cached delegations are searched nearest first", "statement": "The cached delegation used to start a lookup is the closest enclosing zone of the queried name for which NS records are cached.", "quantifier": "every cache content and name", "why_tests_cant": "all caches and names", "anchors": ["src/resolver/back_end/recursive.rs: generate_domain_hierarchy, search_nss_in_cache_with_trace"]}
{"id": "C71", "title": "Accepted configurations are usable", "statement": "If configuration validation succeeds, thread counts, time-outs, limits and cache parameters are in the ranges the servers need, and zone names are valid.", "quantifier": "every configuration", "why_tests_cant": "all configurations", "anchors": ["src/nameserver/conf.rs: Conf::validate", "src/resolver/conf.rs: Conf::validate"]}
{"id": "C72", "title": "Every accepted request is handled exactly once and answered only to its sender", "statement": "In every execution of a UDP or TCP server, everything sent comes from runs of the handler, at most one for each request taken from the socket, in order of acceptance; every datagram goes to the address whose request it answers, and no address is sent more datagrams than it sent; a server that was shut down has handled every accepted request.", "quantifier": "every schedule of the listening thread and the workers, every sequence of requests, every number of threads, stop flag set at any time", "why_tests_cant": "interleavings of threads and arrivals", "anchors": ["src/shared/net/udp_server.rs: start_udp_server", "src/shared/net/tcp_server.rs: start_tcp_server", "src/shared/thread_pool.rs: ThreadPool"]}
{"id": "C73", "title": "No sequence of requests takes the server process down", "statement": "Whatever clients send, the name server and the resolver process does not abort.", "quantifier": "every sequence of datagrams, every schedule, every number of threads and configuration", "why_tests_cant": "adversarial inputs and interleavings", "anchors": ["src/shared/net/udp_server.rs: start_udp_server", "src/shared/thread_pool.rs: execute, drop"]}
{"id": "C74", "title": "Accepted requests are served after a bounded number of steps", "statement": "However the threads are scheduled, a server that gets no new requests comes to rest after a bounded number of steps, and then every accepted request has been handled exactly once (as long as one thread is left and handling ends).", "quantifier": "every reachable state and schedule", "why_tests_cant": "liveness over all schedules", "anchors": ["src/shared/net/udp_server.rs: start_udp_server", "src/shared/net/tcp_server.rs: start_tcp_server", "src/shared/thread_pool.rs: Worker::new"]}
{"id": "C75", "title": "The two servers live and die together", "statement": "Nothing is shut down while both servers run; when one of them ends (e.g. its address cannot be bound), the other one is stopped, its accepted requests are completed and start_servers returns.", "quantifier": "every schedule of the main thread, both servers and their workers", "why_tests_cant": "interleavings, start-up races", "anchors": ["src/shared/net/setup.rs: start_servers, wake_up_servers"]}
{"id": "C76", "title": "Tracing does not change a lookup", "statement": "Whether and how a lookup is traced (silent, verbose, colours) changes neither its outcome nor the packets it sends nor the cache.", "quantifier": "every network behaviour, configuration, question and world", "why_tests_cant": "tests compare a few lookups; here every branch of the resolver must treat the trace as write-only", "anchors": ["src/resolver/back_end/trace.rs: Trace", "src/resolver/back_end/recursive.rs: perform_inner"]}
{"id": "C77", "title": "A disabled trace is empty", "statement": "If tracing is disabled, the trace a lookup returns is empty.", "quantifier": "every lookup with tracing disabled", "why_tests_cant": "depends on the path of the lookup, e.g. on nested lookups", "anchors": ["src/resolver/back_end/trace.rs: skip_if_silent, add_sub_trace", "src/resolver/back_end/recursive.rs: perform"]}
{"id": "C78", "title": "A trace tells what happened", "statement": "The trace of a lookup lists, in the order in which they happened, all resolutions started and all servers asked, and nothing else, and each request is followed by its outcome.", "quantifier": "every traced lookup that returns", "why_tests_cant": "quantifies over all runs of the resolver", "anchors": ["src/resolver/back_end/trace.rs: t_start, t_ns_req, t_ns_resp, t_ns_err, add_sub_trace", "src/resolver/back_end/recursive.rs: perform_request_with_trace"]}
{"id": "C79", "title": "Logging a trace does not cost the reply", "statement": "Clients get the same replies whether traces are logged or not, in debug and in release builds.", "quantifier": "every request, network behaviour and build profile", "why_tests_cant": "needs lookups nested 256 deep", "anchors": ["src/resolver/back_end/trace.rs: display_trace_lines", "src/resolver/handler.rs: handle_request"]}
{"id": "C80", "title": "Garbage is ignored", "statement": "A packet without a readable header gets no reply from the name server or the resolver, does not make them panic, and makes the resolver send nothing and change nothing; the name server leaves no other packet without an attempt to reply. The same over TCP, and for connections that end early.", "quantifier": "every byte string, zone set, network, cache", "why_tests_cant": "all byte strings", "anchors": ["src/shared/net/udp_server.rs: UdpRequest::read", "src/shared/net/tcp_server.rs: TcpRequest::read", "src/nameserver/handler.rs: handle_dns_request", "src/resolver/handler.rs: handle_request"]}
{"id": "C81", "title": "A reply that the socket takes in parts", "statement": "If send_to takes only some of the octets of a reply, the next call continues with the first octet not taken, until all were taken or a call fails, and reply returns Ok exactly in the first case.", "quantifier": "every reply and every sequence of results of send_to", "why_tests_cant": "all sequences of partial sends", "anchors": ["src/shared/net/udp_server.rs: UdpResponse::reply"]}
{"id": "C82", "title": "With honest servers lookups return the truth", "statement": "If every server answers with nothing but true records, whole record sets (unless it says that it truncates), and NXDOMAIN only for names without records, and the cache is true, then a successful lookup returns only true records: aliases from the queried name to a final name and all records of the queried type of that name, or a denial of a name that has none; and the cache stays true.", "quantifier": "every state of the DNS, network behaviour, cache content, interleaving with other threads, name and type", "why_tests_cant": "all server behaviours within honesty and all interleavings", "anchors": ["src/resolver/back_end/recursive.rs: perform_inner, save_records_in_cache", "src/resolver/back_end/requests.rs: perform_request", "src/resolver/back_end/cache.rs: RecordsCache::set, get"]}
{"id": "C83", "title": "Lookups survive failing servers", "statement": "If nothing about a name is cached, and the referrals from the root servers (with the addresses of the servers) lead to servers that give the answer, or deny the name with authority, then the lookup returns that answer or denial although at every zone on the way fewer than max_nameservers_queried servers are down (silent, or sending undecodable packets, other ids, error codes, empty responses or denials without authority) as long as one works, that is, answers at least one of any max_udp_retries queries in a row. If all servers of a zone reached that way are down the lookup returns an error.", "quantifier": "every chain of referrals of any length, every choice and behaviour of failing servers, every name, type and configuration", "why_tests_cant": "all failure patterns, patterns of lost datagrams and chain lengths", "anchors": ["src/resolver/back_end/recursive.rs: query_nameservers_iteratively, perform_inner", "src/resolver/back_end/requests.rs: perform_request, send_query_with_retries"]}
{"id": "C84", "title": "Answers are kept", "statement": "Whoever asks for the name and type a successful lookup ended with again, before the smallest TTL of the records has passed since the first lookup started, gets the same records with TTLs that are not larger, without a single packet being sent, unless another thread has changed the entry.", "quantifier": "every network behaviour, cache content, interleaving, name, type and time of the second lookup", "why_tests_cant": "all times and network behaviours", "anchors": ["src/resolver/back_end/recursive.rs: perform_inner, save_records_in_cache, search_records_in_cache", "src/resolver/back_end/cache.rs: set, get_clone"]}
{"id": "C85", "title": "The resolver and the name server work together", "statement": "If referrals lead from the root servers to servers that run this program's name server with a loaded zone, this program's resolver, asked for a name and type of that zone, returns exactly the record set of the zone file (TTL, owner and data unchanged) if it has one, and reports that there are none if the zone has neither such records nor an alias; and a sub zone of such a zone, with servers that have addresses, is one more such referral.", "quantifier": "every loaded zone set, name and type, every record set that fits in a datagram of 512 octets and is of a kind that survives the wire (see C21), every number of referrals, build profile of either program, cache content and schedule", "why_tests_cant": "all zones, names and chains of delegations", "anchors": ["src/nameserver/handler.rs: handle_query, handle_auth_zone, handle_subzone", "src/nameserver/zones/parser.rs: parse_zone_files", "src/resolver/back_end/recursive.rs: perform", "src/resolver/back_end/requests.rs: perform_request, send_query_with_retries"]}
{"id": "C86", "title": "Announced counts are covered by bytes", "statement": "Bytes that decode are at least as long as the 12 octets of the header, five octets for every question and eleven for every record that the header announces, and the sections of the decoded message have at most as many items as announced; so a request read from a datagram has at most 100 questions and 45 records, one read from a TCP connection at most 13104 and 5956.", "quantifier": "every byte string, build profile and announced count", "why_tests_cant": "all byte strings and counts", "anchors": ["src/shared/dns/message.rs: decode", "src/shared/dns/records.rs: decode", "src/shared/dns/questions.rs: decode", "src/shared/net/udp_server.rs: UdpRequest::read", "src/shared/net/tcp_server.rs: TcpRequest::read"]}
{"id": "C87", "title": "Replies over TCP are framed", "statement": "Whatever is asked over TCP, what either server sends back, if its write succeeds, is nothing or exactly one message preceded by its length in two octets.", "quantifier": "every byte stream, zone, configuration, cache content, network behaviour and build profile", "why_tests_cant": "all requests and all answers that can be gathered", "anchors": ["src/shared/net/tcp_server.rs: TcpResponse::reply", "src/nameserver/handler.rs: handle_err", "src/resolver/handler.rs: handle_err, handle_query", "src/resolver/back_end/recursive.rs: perform"]}
{"id": "C88", "title": "Earlier lookups do no harm", "statement": "A name that is found with an empty cache is also found with whatever earlier lookups left in the cache; in particular, in a name space whose zones each have a working server, and fewer servers that do not work than are tried, every name is resolved, aliases followed, by every one of any sequence of lookups, from the cache or from the servers.", "quantifier": "every name space, network behaviour, question, history of lookups, clock and activity of other threads", "why_tests_cant": "all histories of the cache, delegation trees and timings", "anchors": ["src/resolver/back_end/recursive.rs: perform, handle_cname, query_nameservers_iteratively, resolve_ns_subquery, search_records_in_cache, search_nss_in_cache_with_trace, save_records_in_cache, save_nss_in_cache", "src/resolver/back_end/requests.rs: perform_request, extract_next_nss_for_cname, extract_next_nss_for_subzone", "src/resolver/back_end/cache.rs: get, set"]}
{"id": "C89", "title": "The clients of the resolver are answered", "statement": "In a name space that is in order (each zone on the way to a name has a working server, and fewer that do not work than are tried) and whose records the library can represent faithfully, for a period shorter than the TTLs of NS records and server addresses, every client that asks for a name (type other than NS and CNAME) gets, over UDP, exactly one datagram of at most 512 octets that decodes to a response to its request (same id, same question) with the aliases in order and then exactly the records of the name, or NXDOMAIN if the name does not exist, or, with TC set, the part of it that fits; over TCP it gets the complete response in one frame. This holds for any number of clients, one after the other, whatever the cache has come to hold.", "quantifier": "every name space in order, request, history of requests, network behaviour of the working and failing servers, clock and activity of other threads", "why_tests_cant": "all delegation trees, histories of the cache, losses and record sets", "anchors": ["src/resolver/handler.rs: handle_request, handle_query", "src/resolver/back_end/recursive.rs: lookup, perform", "src/shared/net/udp_server.rs: reply", "src/shared/net/tcp_server.rs: reply", "src/shared/dns/message.rs: encode_to_bytes, encode_to_bytes_trunc, decode_from_bytes"]}
{"id": "C90", "title": "Lookups in several threads that share the cache", "statement": "However many threads look names up at the same time, sharing the cache, and in whatever order they and the cleaning of the cache make their steps, whatever the servers send, for less than 2^32 seconds and with no record whose TTL ends more than 2^32 seconds after the beginning: the cache stays good (each entry has records of its own type, owner and TTL), and each lookup that has ended has gone as a single lookup goes (C55-C69): it panics only on a datagram that makes the decoder panic or if the name of a server is denied; its response consists of aliases that lead from the queried name to another and of records of that name and type; and every thread that keeps getting turns ends (unless the release decoder hangs).", "quantifier": "every number of threads, questions, schedules (order of the steps of all threads and of the cleaner), clocks, ids and everything that servers may send to each thread", "why_tests_cant": "all interleavings of unboundedly many threads with adversarial servers", "anchors": ["src/resolver/back_end/recursive.rs: Lookup::perform, search_records_in_cache, save_records_in_cache", "src/resolver/back_end/cache.rs: get_clone, set, clean", "src/resolver/handler.rs: handle_query"]}
{"id": "C91", "title": "The truth in several threads", "statement": "If all servers are honest, and however many threads look names up at the same time in whatever order of steps, nothing in the shared cache and no record of any response is false, and a name is only reported not to exist if it has no records; and if no response of a server is truncated, each response (but to questions for NS records) has all the records of the name and type.", "quantifier": "every set of facts, number of threads, questions, schedules, clocks, ids and honest servers", "why_tests_cant": "all interleavings of unboundedly many threads and all honest behaviours", "anchors": ["src/resolver/back_end/recursive.rs: Lookup::perform, search_records_in_cache, save_records_in_cache, save_nss_in_cache", "src/resolver/back_end/requests.rs: perform_request", "src/resolver/back_end/cache.rs"]}
{"id": "C92", "title": "All lookups in several threads succeed", "statement": "In a name space that is in order (C88), for a period shorter than the TTLs of NS records and server addresses, however many threads look up its names at the same time, sharing the cache, and in whatever order they and the cleaning of the cache make their steps: every lookup that has ended has returned what the servers say, aliases followed, and every thread that keeps getting turns ends; the cache stays in order.", "quantifier": "every name space in order, number of threads, questions, schedules, clocks, ids, and every behaviour of working and failing servers towards each thread", "why_tests_cant": "all interleavings, delegation trees, losses", "anchors": ["src/resolver/back_end/recursive.rs: Lookup::perform, query_nameservers_iteratively, search_nss_in_cache_with_trace, save_nss_in_cache", "src/resolver/back_end/cache.rs: get_clone, set, clean"]}
{"id": "C93", "title": "Requests served by several threads", "statement": "However many requests, over UDP and TCP, well-formed or not, are served at the same time by threads that share the cache, in whatever order they and the cleaning of the cache make their steps, whatever the servers send, for less than 2^32 seconds and with no record whose TTL ends more than 2^32 seconds after the beginning: the cache stays good, and each request that has been served has been served as by a single thread (C67-C69, C87). In particular every message whose questions are all of known types gets, if its thread keeps getting turns, exactly one reply that mirrors its header and repeats its questions, unless its own thread received a datagram on which the decoder panics or hangs, or a server denied the name of a server: other clients and what their threads receive make no difference.", "quantifier": "every number and kind of requests, schedules, clocks, ids, peers, and everything that servers may send to each thread", "why_tests_cant": "all interleavings of unboundedly many requests with adversarial clients and servers", "anchors": ["src/resolver/handler.rs: handle_request, handle_query", "src/shared/net/udp_server.rs: start_udp_server", "src/shared/net/tcp_server.rs: start_tcp_server", "src/resolver/back_end/recursive.rs: Lookup::perform", "src/resolver/back_end/cache.rs"]}
{"id": "C94", "title": "All clients of the resolver are answered", "statement": "In a name space that is in order (C88) and has plain records only, for a period shorter than the TTLs of NS records and server addresses, however many clients ask, over UDP and TCP, for its names, and whatever else is sent that is not a request with one question, in whatever order the threads make their steps: every client whose thread keeps getting turns gets a response (over UDP one datagram of at most 512 octets, over TCP one frame), which decodes to a response to the request with the aliases and the records that the servers have, completely or, over UDP with TC set, as far as it fits; or NXDOMAIN if the name does not exist.", "quantifier": "every name space in order, number of clients, requests and garbage, schedules, clocks, ids, and every behaviour of working and failing servers towards each thread", "why_tests_cant": "all interleavings, delegation trees, losses", "anchors": ["src/resolver/handler.rs: handle_request, handle_query", "src/shared/net/udp_server.rs: UdpResponse::reply", "src/shared/net/tcp_server.rs: TcpResponse::reply", "src/resolver/back_end/recursive.rs: Lookup::perform", "src/resolver/back_end/cache.rs"]}
{"id": "C95", "title": "Records do not outlive the TTL they were received with", "statement": "In every sequence of lookups made one after the other, starting with an empty cache, whatever the servers answer and however much time passes between any two steps, every record of every response comes from a record that one of these lookups received, with the same owner, class and data and no smaller TTL; and the TTL given out, counted from the beginning of the lookup, ends no later than the received TTL, counted from the end of the lookup that received it. (False for CNAME records: each lookup that finds one in the cache saves it anew, so that a record asked for again and again is given out long after its TTL ended.)", "quantifier": "every sequence of lookups (names, types), every network behaviour, clock and drawing of ids", "why_tests_cant": "a history property over unboundedly many lookups and all timings", "anchors": ["src/resolver/back_end/recursive.rs: perform_inner, handle_cname, save_records_in_cache, search_records_in_cache", "src/resolver/back_end/cache.rs: set, get_clone"]}
{"id": "C96", "title": "Name servers and resolver of this program make a whole", "statement": "Take zones each of which is loaded and served by name servers of this program, such that they fit together: every zone inside another is delegated by it, the delegation names the servers the zone itself names, with all their addresses or, if these can be found otherwise, none; of the servers of each zone some run and are reached by one of so many queries in a row, and fewer than the configured number are out of use; what is to be said fits in a datagram; aliases are exclusive; and the root servers know the way. Then, for a period shorter than the TTLs of NS records and server addresses, the resolver of this program, asked for any of the names of interest one after the other or by many threads at the same time, answers with exactly the records the zone of the name has loaded, aliases followed across zones, or says that the name does not exist.", "quantifier": "every set of zone files and configurations that load and fit together, every pattern of losses and failures within the limits, every sequence of questions, schedule, clock and drawing of ids", "why_tests_cant": "ranges over all delegation trees, zone contents, losses and interleavings at once", "anchors": ["src/nameserver/handler.rs: handle_query", "src/nameserver/zones/parser.rs: parse_zone_files", "src/resolver/back_end/recursive.rs: Lookup::perform", "src/resolver/back_end/requests.rs", "src/resolver/back_end/cache.rs", "src/shared/net/udp_server.rs"]}
{"id": "C97", "title": "The layout of zone files has no meaning", "statement": "Comments, lines with nothing but white space and maybe a comment, and line breaks within parentheses have no meaning: if the zone files of two installations differ in nothing else (and no line begins with an opening parenthesis), then both load to the same zones, or both fail with the same error. (False after a word with a backslash: the file whose last word on a line has an escaped character makes the loader panic, but loads with a comment after the word.)", "quantifier": "every pair of sets of zone files that differ by any number of such edits, every configuration, every profile and hash order", "why_tests_cant": "relates the results for all pairs of files", "anchors": ["src/nameserver/zones/tokens.rs: Tokenizer::next, next_after_blanks, peek, peek_after_blanks", "src/nameserver/zones/parser.rs: parse_zone_files", "src/nameserver/zones/parser_auth.rs: parse_auth_zone_file", "src/nameserver/zones/parser_sub.rs: parse_sub_zone_file"]}
{"id": "C98", "title": "Records do not outlive the TTL they were received with, whatever other threads do", "statement": "When any number of lookups run in threads that share the cache (empty at first), in any order of their steps and with the cleaner in between, whatever the servers answer: every record of a response comes from a record with the same owner, class and data that one of the threads has received by then, with no smaller TTL; and the TTL given out, counted from the beginning of the lookup, ends no later than the received TTL, counted from some moment at which the thread that received it was still at work. (False: a thread that read the clock before another saved an alias finds more time left than the alias was received with, says so to its client, and saves the alias anew for that long; so it is given out after the TTL ended. Records other than CNAME records do not outlive their TTL, although the TTL given out may exceed the TTL received.)", "quantifier": "every number of threads, every order of their steps, every question each asks, every network behaviour and clock", "why_tests_cant": "a race between reading the clock and locking the cache; it must hold for every interleaving", "anchors": ["src/resolver/back_end/recursive.rs: search_records_in_cache, save_records_in_cache, handle_cname", "src/resolver/back_end/cache.rs: get_clone, set, clean", "src/resolver/handler.rs: handle_query"]}
{"id": "C99", "title": "The resolver asks nobody it was not told of, and nothing it was not asked or told", "statement": "When any number of requests are served, or names looked up, in threads that share the cache (empty at first), whatever the clients and the servers send: whenever a thread sends a datagram, its request was a message with a question, and the datagram is a standard query with one question, sent to the address of a root server or to an address that was received, before, in an A record for a name that was itself received, before, as the target of an NS record; and the query is for the type of the client's question and a name to which a chain of received CNAME records leads from the client's name (perhaps the name itself), or for the A records of the target of a received NS record.", "quantifier": "every number of threads, every order of their steps, every request, every network behaviour, clock and random number", "why_tests_cant": "must hold for every behaviour of the servers and every interleaving of the threads through the shared cache", "anchors": ["src/resolver/back_end/recursive.rs: perform_inner, query_nameservers_iteratively, resolve_ns_subquery, handle_cname, search_nss_in_cache_with_trace", "src/resolver/back_end/requests.rs: perform_request, send_query, send_udp_packet, build_dns_request, extract_next_nss_for_subzone, extract_next_nss_for_cname", "src/resolver/handler.rs: handle_query"]}
{"id": "C100", "title": "The loader takes exactly the zone sets that fit together", "statement": "If the files of a configured zone other than the root, and those of its sub zones, stand for records (in the text format that C41 says is read), the loader succeeds exactly if: the zone has NS records, all at its apex; each sub zone has NS records, all at its own apex; each name server of a sub zone that lies within the zone and within some sub zone has an A record among the records of the latter; and each A record of a sub zone belongs to the name of a name server of some sub zone. Otherwise it ends with an error, not a panic, and not by running on.", "quantifier": "every set of files in the text format, every configuration with valid names other than the root, every iteration order of the hash maps, both build profiles", "why_tests_cant": "the equivalence ranges over all zone sets, consistent and inconsistent, of any number of records and sub zones", "anchors": ["src/nameserver/zones/parser.rs: parse_zone_files, validate_auth_zone, validate_subzone"]}
{"id": "C101", "title": "What clients get is what the zone files say", "statement": "If the files of a zone and of its sub zones (none of them the root) stand for records in the text format of C41, and are loaded, then the reply to any standard query with one question is exactly this, in all its fields: REFUSED without records if the name is not in the zone; else, if it is in a sub zone, the NS records of the first such sub zone as authorities without the authority bit, and as additionals the A records that the sub zones containing them have for the targets, in order; else, with the authority bit, the records of the name and type in the order of the files; or, if there are none, the CNAME records of the name; or, if there are none either, NXDOMAIN with the SOA record. Over UDP and TCP, what is sent is that message.", "quantifier": "every set of zone files in the text format, every configuration with valid names, every order of hash maps, both build profiles, every question", "why_tests_cant": "a functional specification from the text of the files to the whole reply, for all files and questions", "anchors": ["src/nameserver/handler.rs: handle_dns_request, handle_query, handle_auth_zone, handle_subzone, handle_nx_err", "src/nameserver/zones/parser.rs: parse_zone_files", "src/nameserver/zones/parser.rs: Zone"]}
{"id": "C102", "title": "Edits elsewhere in the zone files do not change a reply", "statement": "Take two sets of zone files for the same zone, in the text format of C41, however written (order of lines, included files, layout) and loaded. If both have the same SOA record, the same records of each type, in the same order, for the names asked for in a request, and the same records in the sub zones (per name and type), then a server of either sends exactly the same octets in response to that request, over UDP and TCP, also if the request is malformed.", "quantifier": "every pair of file sets, every datagram or TCP stream, every order of the hash maps", "why_tests_cant": "a relation between all pairs of file sets and all inputs", "anchors": ["src/nameserver/handler.rs: handle_dns_request", "src/nameserver/zones/parser.rs: parse_zone_files", "src/nameserver/zones/parser.rs: Zone"]}
{"id": "C103", "title": "UDP and TCP give the same reply", "statement": "If a request of at most 512 octets, sent over TCP, gets a reply, then the same request sent over UDP (to the resolver: at the same moment, with the servers behaving the same) gets the same message, octet for octet, if that has at most 512 octets; otherwise a datagram of at most 512 octets that holds its first items, as many as fit, with the same id, flags and codes, TC set, and the numbers of the items it holds. If it gets no reply over TCP, it gets none over UDP.", "quantifier": "every request, every set of zones, every cache and behaviour of servers, both profiles", "why_tests_cant": "relates two ways of serving for all inputs and states", "anchors": ["src/shared/dns/message.rs: encode_to_bytes, encode_to_bytes_trunc", "src/shared/net/udp_server.rs: UdpRequest, UdpResponse", "src/shared/net/tcp_server.rs: TcpRequest, TcpResponse", "src/nameserver/handler.rs", "src/resolver/handler.rs"]}
{"id": "C104", "title": "The queries of the resolver are in the form RFC 1035 prescribes", "statement": "When any number of requests are served in threads that share the cache (empty at first), whatever the clients and the servers send: every datagram sent to a server is a standard query without recursion, with exactly one question, of class IN, for a name of labels of 1 to 63 letters, digits and inner hyphens, of at most 255 octets, and nothing after it.", "quantifier": "every number of threads, every order of their steps, every request, every network behaviour, clock and random number", "why_tests_cant": "must hold for every behaviour of the servers, whose records determine the names asked for, and every interleaving", "anchors": ["src/resolver/back_end/requests.rs: build_dns_request, send_udp_packet", "src/shared/dns/name.rs: to_bytes, from_bytes", "src/resolver/back_end/recursive.rs"]}
{"id": "C105", "title": "Clients are told nothing that no server has said, nor for longer", "statement": "When any number of requests are served in threads that share the cache (empty at first), whatever the clients and the servers send: a client is sent nothing, or a message all of whose records say what a record said that some thread had received from a server by then; and, aliases apart (C98), their TTLs, from the beginning of the service of the request on, end no later than those received.", "quantifier": "every number of threads, every order of their steps, every request over UDP and TCP, every network behaviour, clock and random number", "why_tests_cant": "must hold for every interleaving of threads and every behaviour of clients and servers", "anchors": ["src/resolver/handler.rs: handle_request, handle_query", "src/resolver/back_end/recursive.rs: perform_inner", "src/resolver/back_end/cache.rs", "src/shared/net/udp_server.rs", "src/shared/net/tcp_server.rs"]}
{"id": "C106", "title": "What a client is told answers what it asked", "statement": "When any number of requests are served in threads that share a cache, whatever the clients and the servers send: a message read from a client that has been served was answered with a reply with its id and questions; FORMERR without records if it is not a request with one question; otherwise NOERROR with a chain of aliases, shorter than the limit, from the name in question to a name, followed by at least one record of the type in question, of that name (NS records apart); or NXDOMAIN without records, and a server with the AA flag has denied the name to which aliases lead; or SERVFAIL without records.", "quantifier": "every number of threads, every order of their steps, every request over UDP and TCP, every good cache at first, every network behaviour, clock (for less than 2^32 seconds, TTLs not too long) and random number", "why_tests_cant": "replies could be mixed up, or answered with records for other questions, under some interleaving", "anchors": ["src/resolver/handler.rs: handle_request, handle_query", "src/resolver/back_end/recursive.rs: perform_inner, handle_cname", "src/resolver/back_end/requests.rs: perform_request"]}
{"id": "C107", "title": "A request causes a limited number of queries", "statement": "When any number of requests are served in threads that share a cache, whatever the clients and the servers send: for each request, no more names are resolved for the client than the configured limit on redirections, and no more queries are sent than, for each of these names, (octets of the name + 1) x limit on servers x limit on retries.", "quantifier": "every number of threads, every order of their steps, every request, every cache, every network behaviour, at every moment", "why_tests_cant": "adversarial servers that lead the resolver on; every interleaving", "anchors": ["src/resolver/back_end/recursive.rs: perform_inner, query_nameservers_iteratively, resolve_ns_subquery", "src/resolver/back_end/requests.rs: send_query_with_retries"]}
{"id": "C108", "title": "Only the name and the type asked for matter to the resolver", "statement": "When any number of requests are served in threads that share a cache, nothing in a request except the name and type of its question has an effect on anybody else or on what is looked up: if each of the requests is replaced by one (over UDP or TCP, with whatever id, flags and records) that asks for the same name and type, or if both ask for nothing, then at every moment the cache is the same, the same queries have been sent, the same requests have been served, and the replies have the same code and records, each with the id and questions of its own request.", "quantifier": "every two sequences of requests that ask for the same, every schedule, every network behaviour, every cache, at every moment", "why_tests_cant": "noninterference between pairs of histories; every interleaving", "anchors": ["src/resolver/handler.rs: handle_request, handle_query", "src/resolver/back_end/recursive.rs: perform"]}
{"id": "C109", "title": "Queries are sent only for clients that want recursion and only if needed", "statement": "No query is sent for a client that does not desire recursion; no query is sent for a client if the records it asks for are in the cache, not expired, while it is served; and none for a message that is not a request with a question.", "quantifier": "every number of threads, every schedule, every request, every network behaviour, every cache, at every moment", "why_tests_cant": "absence of an effect in every interleaving, for every cache content and every request", "anchors": ["src/resolver/handler.rs: handle_query", "src/resolver/back_end/recursive.rs: perform_inner, search_records_in_cache"]}
{"id": "C110", "title": "What is taken from a response is in it and is about what was asked", "statement": "Whenever a query leads to an answer, an alias, a referral or a denial, this was taken from a message received last, in reply to a query for this name and type and with its id, which says just that about this name, and the question section of which is the question asked.", "quantifier": "every network behaviour, every server, every name and type, every number of retries", "why_tests_cant": "every message a server may send", "anchors": ["src/resolver/back_end/requests.rs: perform_request, send_query_with_retries, send_query", "src/resolver/back_end/utils.rs: extract_records, extract_record"]}
{"id": "C111", "title": "Different names on the wire are different names", "statement": "If two names on the wire, in whatever messages and however compressed, are read as the same name, then they consist of the same labels.", "quantifier": "every two messages, positions and compressed names", "why_tests_cant": "injectivity over all octet strings", "anchors": ["src/shared/dns/name.rs: from_bytes, validate_name, to_bytes"]}
{"id": "C112", "title": "Replies are not answered", "statement": "Neither the name server nor the resolver sends anything when it receives a message that is itself a reply, so that no two servers can be made to answer each other without end.", "quantifier": "every message with the QR flag, over UDP and TCP, every zone, every cache; every length of the exchange", "why_tests_cant": "unending exchanges; every message", "anchors": ["src/nameserver/handler.rs: handle_dns_request, validate_dns_request, handle_err", "src/resolver/handler.rs: handle_request, validate_dns_request, handle_err"]}
{"id": "C113", "title": "Only the name and the type asked for matter to the name server", "statement": "Two requests to the name server, over UDP or TCP, with whatever ids and flags, that ask for the same name and type are answered with the same code, AA flag and records, each with its own id and question; one of them gets no reply only if the other gets none.", "quantifier": "every two requests, every zone set", "why_tests_cant": "pairs of arbitrary requests and arbitrary zones", "anchors": ["src/nameserver/handler.rs: handle_query, handle_auth_zone, handle_subzone"]}
{"id": "C114", "title": "Every start on the same files makes the same server", "statement": "Whatever the zone files hold and in whatever orders the hash maps are iterated over, two starts of the name server with the same configuration have the same outcome: both refuse the files, both panic in the same way, both never finish, or both serve, and then they do the same with every datagram and every TCP stream.", "quantifier": "all files (well-formed or not), all configurations, all iteration orders of hash maps, all requests", "why_tests_cant": "iteration orders are random; all files and requests", "anchors": ["src/nameserver/zones/parser.rs: parse_zone_files, Zone::extend, Zone::get_all_of_type, validate_auth_zone, validate_subzone", "src/nameserver/zones/parser_auth.rs: parse_entries"]}
{"id": "C115", "title": "The TC flag tells whether a reply is whole", "statement": "A reply over TCP, which is always whole, does not have the TC flag; the datagram sent for the same request over UDP has it if and only if the reply has more than 512 octets, so that something is missing. This holds of the name server and of the resolver.", "quantifier": "every request, zone set, cache and behaviour of servers", "why_tests_cant": "all requests and replies of all sizes", "anchors": ["src/nameserver/handler.rs: resp_header_from_req_header", "src/resolver/handler.rs: resp_header_from_req_header", "src/shared/dns/message.rs: encode_to_bytes_trunc"]}
{"id": "C116", "title": "Worker threads end, and only for a reason", "statement": "A thread of the pool dies only of a job that panics, one thread per such job, also while the pool is dropped, when dropping it panics, and afterwards. Once the owner is done with the pool in whatever way (dropped, or panicked in submitting or dropping), the threads that are left end by themselves: they take a bounded number of steps, and when none can take another all have ended (a job that runs forever is one that takes no step, and its thread one that could).", "quantifier": "every pool size, every number of jobs, every schedule, every choice of jobs that panic or return", "why_tests_cant": "all interleavings of owner and workers and all patterns of panics", "anchors": ["src/shared/thread_pool.rs: Worker::new, ThreadPool::execute, Drop for ThreadPool"]}
{"id": "C117", "title": "A blank owner is the last stated owner", "statement": "In a zone file, a record line that starts with a blank belongs to the owner stated last (RFC 1035 5.1), whatever $ORIGIN and $INCLUDE lines come in between.", "quantifier": "all zone files in the text format of C41, with included files, all zones but the root, all hash orders", "why_tests_cant": "all files", "anchors": ["src/nameserver/zones/parser_auth.rs: parse_entries, parse_record"]}
{"id": "C118", "title": "The name server as a whole: from the zone files to the replies", "statement": "A name server that has loaded its zone files sends only replies to messages clients have sent, each to the client that sent the message; the reply to a standard query with one question is the one that the records written in the zone files stand for (whole with its length over TCP, cut to 512 octets over UDP). If the questions that arrive have supported types and no string of the zone is too long, it keeps all its threads and handles each accepted request exactly once.", "quantifier": "all zone files in the text format of C41 (root zone excepted), all hash orders, all datagrams and connections, all numbers of threads, all schedules, with or without a stop", "why_tests_cant": "all zone files, all inputs and all schedules at once", "anchors": ["src/shared/net/udp_server.rs", "src/shared/net/tcp_server.rs", "src/shared/thread_pool.rs", "src/nameserver/handler.rs", "src/nameserver/zones/parser.rs", "src/nameserver/zones/parser_auth.rs", "src/nameserver/zones/parser_sub.rs"]}
{"id": "C119", "title": "A name without records of the type asked for is not an error", "statement": "If a name exists but has no records of the type a client asks for, and the servers say so (an authoritative response without error and without answers), the client gets a reply with code NOERROR and no answers (RFC 2308, 2.2).", "quantifier": "all honest servers (whatever they answer to other queries), all states of the cache, all names, types and limits", "why_tests_cant": "all worlds and caches", "anchors": ["src/resolver/back_end/requests.rs: perform_request", "src/resolver/back_end/recursive.rs", "src/resolver/handler.rs"]}
{"id": "C120", "title": "The resolver as a whole", "statement": "However the two servers, their workers, the cleaner and the clients interleave: the resolver serves its requests exactly as if each had a thread of its own over one cache; every request taken over UDP or TCP is handled at most once, and exactly once (unless a worker panics) when the resolver comes to rest with a living worker; what is sent is what serving the requests produced, each to the client that asked; every record any client is told was received from a server by some worker; the reply to each readable request is one to that request (its id, its question, its kind of answer), made from what its own worker learned.", "quantifier": "all requests over UDP and TCP at any time, all numbers of threads, all schedules of the threads, the clock, the random numbers and the cleaner, all networks, all limits, with or without a stop", "why_tests_cant": "all schedules, requests and networks at once", "anchors": ["src/bin/resolver.rs", "src/shared/net/udp_server.rs", "src/shared/net/tcp_server.rs", "src/shared/thread_pool.rs", "src/resolver/handler.rs", "src/resolver/back_end/cache.rs"]}
{"id": "C121", "title": "The resolver as a whole answers everyone", "statement": "In a name space that is in order, when everything that arrives is a request the name space has an answer to: however the servers, their workers, the cleaner and the clients interleave, no worker of the resolver panics, the cache stays in order, and when a server comes to rest it has sent, for each request it has accepted, one reply, to the address the request came from, with the right answer: complete over TCP; complete, or marked as truncated, in at most 512 octets over UDP. Messages among them that are no requests do no harm.", "quantifier": "all name spaces in order, all such requests over UDP and TCP at any time, all numbers of threads, all schedules within the shortest TTL of the delegations, all networks that reach the servers, with or without a stop", "why_tests_cant": "all schedules, requests, name spaces and networks at once", "anchors": ["src/bin/resolver.rs", "src/shared/net/udp_server.rs", "src/shared/net/tcp_server.rs", "src/shared/thread_pool.rs", "src/resolver/handler.rs", "src/resolver/back_end/recursive.rs", "src/resolver/back_end/cache.rs"]}
{"id": "C122", "title": "The resolver does not get stuck", "statement": "In every state of every execution of the resolver, each server has come to rest and waits for a request, or has ended, or one of its threads can go on, or one of its workers is in the middle of a request. While nothing arrives and no worker has a turn in the middle of a request, a server makes a number of steps that is bounded by what has arrived, what is queued and the number of its threads; it never stops anywhere else.", "quantifier": "all executions of C120: all requests at any time, all numbers of threads, all schedules, networks and limits, with or without a stop, workers that have panicked included", "why_tests_cant": "all schedules and all states", "anchors": ["src/shared/thread_pool.rs", "src/shared/net/udp_server.rs", "src/shared/net/tcp_server.rs", "src/bin/resolver.rs"]}
{"id": "C123", "title": "The order of the configured sub zones does not matter", "statement": "Two configurations that differ only in the order of their sub zones are both accepted or both rejected, and if both are loaded, the name servers answer every request with the same reply (the same octets over UDP and over TCP).", "quantifier": "all configurations, all permutations of the sub zones, all zone files, all requests, both build profiles, all iteration orders of hash tables", "why_tests_cant": "all permutations, files and requests", "anchors": ["src/nameserver/zones/parser.rs: parse_zone_files", "src/nameserver/handler.rs: handle_query, handle_subzone"]}
{"id": "C124", "title": "Every string can be written in a zone file", "statement": "In a quoted string of a zone file, \\DDD stands for the octet with this decimal number, and a backslash before any other character for that character (RFC 1035 5.1): the name server answers with exactly the string written. Every ASCII string can be written, with a backslash before each quote and backslash.", "quantifier": "all strings and all texts that stand for them, all iteration orders of hash tables, both build profiles", "why_tests_cant": "all strings", "anchors": ["src/nameserver/zones/tokens.rs: process_quoted_string, parse_escape", "src/nameserver/zones/utils.rs", "src/nameserver/handler.rs: handle_query"]}
{"id": "C125", "title": "Replies repeat the questions, octet by octet", "statement": "Every reply of the name server or the resolver to a request whose question section can be read has, after its header, the very octets of that question section (a client compares them with its own); also when the reply had to be shortened to fit into a datagram, and also when the request is refused or not well-formed.", "quantifier": "all requests of up to 512 octets with any number of questions of class IN for known types, all zones, all states and behaviours of the resolver, over TCP and UDP, both build profiles", "why_tests_cant": "all requests and replies", "anchors": ["src/nameserver/handler.rs: handle_query, handle_err", "src/resolver/handler.rs", "src/shared/dns/message.rs", "src/shared/dns/questions.rs"]}
