C01 proved C01_read_bits_exact |
C02 proved C02_write_bits_exact |
C03 proved C03_panics_only_on_contract_violation |
C04 proved C04_write_read_roundtrip |
C05 proved C05_truncate_exact |
C06 proved C06_from_string_exact |
C07 partial C07_violated,C07_labels_le_63_partial | False of the code: from_string does not limit label length (C07_violated). Proved for names read from the wire.
C08 proved C08_name_decoding_terminates |
C09 partial C09_violated,C09_no_panic_partial | False of the code: a pointer beyond the end of the message panics (C09_violated). Proved: that is the only way to panic.
C10 proved C10_decoded_name_sound |
C11 partial C11_violated,C11_name_roundtrip_partial | False of the code for the root name, written as two zero octets (C11_violated). Proved for all other names.
C12 partial C12_violated,C12_in_zone_partial | False of the code for the root zone (C12_violated). Proved for all other zones; the root case is characterised.
C13 partial C13_violated,C13_case_partial | False of the code: matching is case-sensitive (C13_violated). Proved: sound, and complete for lower-case names.
C14 partial C14_violated,C14_pointers_partial | False of the code for offsets >= 8192 (C14_violated). Proved for all offsets below 8192.
C15 proved C15_code_tables |
C16 proved C16_header |
C17 partial C17_violated,C17_question_partial | False of the code for the root name (C17_violated). Proved for all other questions.
C18 partial C18_violated,C18_record_partial | False of the code for records with root names (C18_violated). Proved for all others of the seven types.
C19 partial C19_violated,C19_txt_encoding_partial | False of the code: no TXT record with a non-empty first string is ever decoded correctly (C19_violated). Proved: the encoder writes the RFC form.
C20 partial C20_violated,C20_wks_partial | False of the code as soon as there is a port (C20_violated). Proved for records without ports.
C21 proved C21_message_roundtrip,C21_plain_message |
C22 partial C22_violated,C22_decode_returns_partial | False of the code: out-of-range pointers and WKS records panic or hang (C22_violated). Proved: decoding returns unless an item of the listed harmful forms is reached.
C23 partial C23_violated,C23_rdlength_partial | False of the code (C23_violated: 16-bit wrap in release, WKS). Proved for all types but TXT within the stated limits.
C24 proved C24_unknown_skipped |
C25 proved C25_udp_size |
C26 proved C26_truncation,C26_no_truncation |
C27 proved C27_truncated_decodes |
C28 partial C28_violated,C28_rdlength_partial | False of the code for WKS records with ports (C28_violated). Proved for all other records (TXT up to 65535 octets).
C29 partial C29_violated,C29_tcp_framing_partial | False of the code for replies over 65535 octets, whose length wraps (C29_violated). Proved for all shorter ones, and for the reader.
C30 proved C30_classification |
C31 proved C31_fifo_at_most_once |
C32 proved C32_drop_waits_for_all_jobs,C32_drop_never_hangs | The first when no job panics; the second, for all executions: drop ends, with or without a panic of its own.
C33 partial C33_violated,C33_panics_cost_one_worker_partial | False of the code: threads are not replaced (C33_violated). Proved: each panicking job costs exactly one thread, and nothing else fails before all are gone.
C34 proved C34_no_deadlock_and_drains |
C35 proved C35_zone_store |
C36 partial C36_violated,C36_auth_zone_partial | False if a configured sub zone contains the zone itself (C36_violated). Proved if none does; every clause but the last is proved in general.
C37 partial C37_violated,C37_consistent_partial | False for a server of the root zone: missing glue is not found out (C37_violated). Proved for all other zones.
C38 partial C38_violated,C38_no_panic_partial | False of the code: an escape in the last word of a line panics (C38_violated). Proved for all files in which no word or quoted string with an escape goes on to the end of its line (escapes elsewhere are fine).
C39 partial C39_violated,C39_terminates_partial | False of the code: a no-break space in a TXT record loops forever (C39_violated). Proved for files without include cycles in which, outside quoted strings, comments and escapes, runs of white space begin with a space or a tab.
C40 partial C40_violated,C40_comments_partial,C40_group_partial,C40_peek_partial | Fails for words with a backslash that end a line: reading them panics there but not before a comment or blank (C40_violated). Proved: comments never matter unless right after such a word; line breaks in parentheses equal blanks for every reader that skips blanks, with the same exception; the peeking clause holds in full for every reachable tokenizer state.
C41 partial C41_records_partial,C41_sub_partial,C41_zones_partial,C41_violated | For every file of the grammar (words, quoted strings, parentheses, comments, all record types, $ORIGIN, nested $INCLUDE): it loads and the store returns exactly the records it stands for. Left out, because the loader rejects them (C41_violated): names and unquoted strings that look like numbers, '@' in data other than CNAME, relative PTR targets, SOA without class, the root zone. Not in the grammar: escapes in words and of the form \DDD (escapes \X in quoted strings are), WKS services.
C42 partial C42_ttl_class_partial,C42_violated | All five spellings at every place of a file, with the last stated TTL as default. Missing: the TTL stated in the SOA record is not inherited by the next record (C42_violated).
C43 proved C43_no_leak,C43_grammar | C43_no_leak: any state, store, included file and following lines; C43_grammar: files of the grammar, which are also shown to load.
C44 partial C44_violated,C44_servable_partial | False of the code: strings over 255 octets are accepted but cannot be encoded (C44_violated). Proved if there are none.
C45 partial C45_violated,C45_refused_partial | False of the code for a server of the root zone, which refuses all names but the root (C45_violated). Proved for every other zone.
C46 proved C46_authoritative | For every loaded configuration, request and record set, for any hash iteration order.
C47 partial C47_violated,C47_referral_partial | False of the code: sub zones outside the zone are accepted by the loader, but names in them are refused (C47_violated). Proved for names inside a non-root zone.
C48 partial C48_violated,C48_nxdomain_partial | False of the code: an existing name without the queried type gets NXDOMAIN (C48_violated). Proved: exact characterisation of when NXDOMAIN is sent and what is in the reply.
C49 partial C49_violated,C49_echo_partial | False of the code: two-question requests are echoed in full (C49_violated). Proved: header echo and counts for every message.
C50 partial C50_violated,C50_replies_partial | False of the code: an AAAA query panics the worker (C50_violated). Proved: exactly one reply, UDP and TCP, if all questions are of known types and no loaded string is over 255 octets.
C51 partial C51_violated,C51_error_partial | False of the code: every such request panics the server (C51_violated). Proved: the reply handed to the encoder has the right id and code.
C52 proved C52_end_to_end | Composition of UDP read, decoding, handler, truncating encoder, send loop and a client's decoder.
C53 proved C53_last_unexpired,C53_set_get | Refinement of the history specification for every sequence of calls and non-decreasing clock readings.
C54 proved C54_clean_unobservable | 
C55 partial C55_violated,C55_served_ttl_partial | False of the code: the clock is read before waiting for the lock, so a record stored meanwhile is served with a TTL larger than stored (C55_violated). Proved: never expired entries, TTL at most the life of the entry from the start of the search; the full bound for entries other threads did not touch during the wait.
C56 proved C56_linearizable | Transition system with every interleaving of the individual steps (lock, clock readings, map accesses, unlock, return) of any number of calls.
C57 proved C57_extract | Multiset equality with the two halves of the list, for every list.
C58 proved C58_sorted,C58_perm | 
C59 partial C59_violated,C59_wrong_owner,C59_chain_partial | False of the code: a CNAME with TTL 0 that points to its own owner is accepted (C59_violated), and cached NS records may belong to another zone (C59_wrong_owner). Proved: everything else, for every server behaviour and friendly threads.
C60 partial C60_violated,C60_terminates_partial,C60_debug,C60_fuel_irrelevant | False of the code in release builds, where a WKS record hangs the decoder (C60_violated). Proved: this is the only reason; debug builds always terminate. The bound on nested lookups is the number of valid names.
C61 proved C61_packets,C61_servers | For every environment, state, fuel and server behaviour.
C62 partial C62_violated,C62_downwards_partial | False of the code: the checks compare text, so example.com. is referred to ample.com. (C62_violated). Proved: textual suffix and length; the full statement if the suffix starts at a label boundary.
C63 partial C63_violated,C63_cached_partial,C63_poisoned | False of the code: the address of any NS target is cached (C63_violated, C63_poisoned). Proved: exactly which records are.
C64 partial C64_violated,C64_panics_partial | False of the code: NXDOMAIN for the name of a server panics the lookup (C64_violated). Proved: this and a decoder panic are the only reasons.
C65 partial C65_violated,C65_other_id_partial,C65_retry,C65_used | False of the code: a datagram with another id is decoded first and may panic the decoder (C65_violated). Proved for every datagram on which the decoder returns.
C66 proved C66_denied | 
C67 partial C67_violated,C67_reply_partial,C67_counts_partial | False of the code only in the counts: any limit on redirections is accepted, and after a chain of 65535 aliases the header announces 0 answers (C67_violated). Proved: everything else, and the counts if the limit is at most 65490 (records come from datagrams, so a section never has more than that limit and 45).
C68 partial C68_violated,C68_header_only,C68_error_partial,C68_replies_partial | False of the code: AAAA queries and requests of which only the header decodes panic the handler. Proved: every other message gets exactly one reply unless a server's datagram panics or hangs the decoder or denies the address of a name server.
C69 proved C69_distinct_zones,C69_no_cname | 
C70 partial C70_violated,C70_nearest_partial | False of the code for the root zone, whose cached servers are never used (C70_violated). Proved for all other zones.
C71 partial C71_violated,C71_tcp_dead,C71_nameserver_partial,C71_resolver_partial | False of the code: a TCP read time-out of 0 is accepted and then no TCP connection is served. Proved: everything else, as an equivalence, and that the programs get past start-up.
C72 proved C72_served_once,C72_nameserver,C72_resolver,C72_nameserver_tcp,C72_resolver_tcp | Transition system of the listening thread, the pool and arrivals, for any handler; instances for the name server and the resolver.
C73 partial C73_violated,C73_survives_partial,C73_tcp_violated,C73_tcp_survives_partial | False of the code: one AAAA query for each thread kills all threads, the next request makes execute panic, and the panic in ThreadPool::drop while unwinding aborts the process (C73_violated, for every zone, configuration and number of threads). Proved: only that many panicking requests can do it, and the name server survives all manageable requests. The same over TCP, where connections that cannot be duplicated (no file descriptors left) do it too.
C74 proved C74_drains | Bound on the number of steps and what holds when they end.
C75 partial C75_violated,C75_lifecycle_partial,C75_clean_partial | False of the code: the wake-up message is lost if the other server does not listen yet, and the main thread panics (C75_violated). Proved: no shut-down before a server ended, at most seven steps to the end of the process, both servers finished when start_servers returns; the clean end if both were woken up.
C76 proved C76_tracing_is_transparent,C76_params_irrelevant | The resolver with its trace, against the resolver without it.
C77 partial C77_violated,C77_silent_partial | False of the code: add_sub_trace does not ask whether the trace is silent (C77_violated, one nested lookup). Proved: nothing but nested empty traces, and empty unless there was a lookup for the address of a name server.
C78 proved C78_trace_is_faithful | Lookups that panic or do not end have no trace.
C79 partial C79_violated,C79_display,C79_nesting,C79_logging_partial | False of the code: a debug build panics (u8 overflow) while formatting a trace nested 256 deep, before the reply is sent (C79_violated; in the witness other threads empty the cache between steps). Proved for release builds, for logs without info messages and for traces nested less than 256 deep.
C80 proved C80_garbage_is_ignored | NoHeader is defined on the bits of the packet.
C81 proved C81_partial_sends,C81_progress | Added after a seeded edit of the send loop survived.
C82 partial C82_violated,C82_ns_incomplete,C82_facts_partial,C82_whole_partial | False of the code: truncated responses (TC set) are returned and cached as if whole (C82_violated), and NS sets stripped of servers without glue are cached and served (C82_ns_incomplete). Proved: never a record that is not a fact, denials only of names without records, the cache stays factual; the full statement when nothing is truncated, for all types but NS.
C83 proved C83_answer_is_found,C83_denial_is_found,C83_failure_is_reported | Stated by LeadsTo and Served in Spec/Delegation.lean; worlds with a silent root server and a failing server of com., and with servers every first query to which is lost, meet the hypotheses.
C84 proved C84_answers_are_kept | The second lookup is of the name the aliases lead to (the queried name if there are none).
C85 proved C85_server_answers,C85_server_denies,C85_server_refers,C85_zone_is_resolved,C85_zone_is_denied,C85_sub_zone_is_found | Stated by Runs, AllRun and Fits in Spec/Together.lean; the example has root servers, a name server of e. with the sub zone s.e. and one of s.e.
C86 proved C86_counts_are_covered,C86_requests | The announced counts are read from the bytes at the places of RFC 1035 4.1.1.
C87 partial C87_violated,C87_resolver_partial,C87_nameserver_partial,C87_cache_stays | False of the code: a request with 10921 to 13104 questions for the root is repeated in a reply of more than 65535 octets, whose length wraps. Proved for the resolver: framed for every request with at most 252 questions, every network behaviour and every redirection limit up to 52; for the name server: framed for every request with at most 252 questions if no set of records or referral of the loaded zones is longer than the 65263 octets left by header and question. Missing: longer ones (see C29), other requests.
C88 partial C88_violated,C88_partial,C88_session_partial | False of the code: NS records outlive the addresses of their servers in the cache, after which the zone cannot be resolved until they expire too. Proved: for name spaces in order (Spec/WellRun.lean: aliases, glueless servers, servers down, other threads), during any period shorter than the TTLs of NS records and server addresses, a coherent cache stays coherent and every lookup returns what the servers say. Missing: lookups of type NS and CNAME, and longer periods where the TTLs of NS records are not above those of the addresses.
C89 proved C89_udp,C89_tcp,C89_session | For every world of Serving (Props/Client.lean): the invariant of C88, records of servers plain (no TXT, no WKS with ports, no root name in data, C19/C20), and is kept by each request. Over UDP the limit on redirections may be up to 65490, over TCP up to 52 (so that the length fits, C87).
C90 proved C90_lookups_in_threads,C90_panics,C90_answers,C90_ends | Model/Tasks has the lookup again as steps of a thread (proved equal to the model of the lookup, lookupTask_is); an access to the cache is one step (the lock, C56). Proved by showing that what a thread has seen is a single lookup in a world whose other threads keep the cache good. C90_panics and C90_answers are the thread versions of the parts of C64 and C59 that hold.
C91 proved C91_facts_in_threads | B says that no response is truncated. NS records: see C82.
C92 proved C92_all_resolved,C92_all_answered | The hypotheses are those of C88 (C88_partial), for each thread; the TTLs of what is stored end less than 2^32 seconds after the beginning.
C93 proved C93_service_in_threads,C93_all_served | Worker threads of the pools (each job is a thread of its own, since workers keep nothing between jobs); the exceptions are named (C22, C60, C64); the steps are proved to be those of serveUdp/serveTcp (Steps.serve_run).
C94 proved C94_answers,C94_all_answered | The hypotheses are those of C89 for each thread; max_cname_redir <= 52 (so that a TCP reply fits its length field, C87).
C95 partial C95_ttl_partial,C95_violated | C95_statement is false for CNAME records (C95_violated: given out after the received TTL ended); proved for all other records, and for CNAME records that they have a source whose TTL is no smaller.
C96 proved C96_in_order,C96_session,C96_threads | Everything proved of name spaces in order (C88, C89, C92, C94) holds of zones served by this program that fit together (Network.Sound); the root servers are not of this program (it cannot serve the root, C45) and enter as a hypothesis.
C97 partial C97_layout_partial,C97_violated | C97_statement is false after a word with a backslash (C97_violated); C97_layout_partial proves it for all edits elsewhere.
C98 partial C98_ttl_in_threads_partial,C98_violated | C98_statement is false (C98_violated: a race makes an alias outlive its TTL); proved for all other records that they do not outlive the received TTL, and for all that they have a source.
C99 proved C99_queries,C99_queries_for_clients | Stated at the moment of sending, for lookups and for served requests. Receipt means: in a decodable datagram that a thread got in reply to a query.
C100 proved C100_accepts | Stated on the records the files stand for (FitTogether), both directions; outside the text format of C41 (its partial grammar, see there) nothing is claimed.
C101 proved C101_text | The text format is that of C41_records_partial (see C41 for what it leaves out); the reply is given as a message (expectedReply), what is sent as its encoding by the models of UDP and TCP replies.
C102 proved C102_udp,C102_tcp | As C101.
C103 proved C103_nameserver,C103_resolver | One direction: from the reply over TCP to that over UDP (a record that cannot be encoded, beyond the 512th octet, panics over TCP only). Frames longer than 65535 octets are included, with the wrapped length of C29.
C104 partial C104_queries_partial,C104_violated | False of the code for the root, whose name is written with an octet too many, and for names of 256 octets (C104_violated). Proved: every other query is in the form prescribed.
C105 proved C105_told | The exception for the TTLs of aliases is part of the statement (see C98_violated).
C106 proved C106_answers_for_clients | The exceptions of C59 (an alias that points to its own owner, owners of NS records) are part of the statement.
C107 partial C107_work_partial,C107_with_addresses,C107_violated | False of the code: servers can lead the resolver from the name of one server to the next (C107_violated). Proved: the statement when no addresses of servers have to be found out; otherwise the same limits for each of the names of servers, the number of which at each depth is limited by those of the depth before.
C108 proved C108_only_the_question | Compares two histories of the service, step by step.
C109 partial C109_cached_partial,C109_violated | False of the code: the RD flag of a request is ignored (C109_violated). Proved: the other two parts, whatever the flag.
C110 partial C110_taken_partial,C110_violated | False of the code: the question section of a response is not looked at, so the denial of another name is taken for a denial of this one (C110_violated). Proved: all the rest.
C111 partial C111_names_told_apart_partial,C111_violated | False of the code: a dot inside a label on the wire is taken for the border between two labels (C111_violated). Proved: the statement for labels without dots (and pointers below octet 8192, C14).
C112 partial C112_only_formerr_partial,C112_violated | False of the code: replies are answered with FORMERR, and two name servers answer each other without end (C112_violated, for every name). Proved: nothing else happens.
C113 proved C113_only_the_question | The counterpart of C108 for the name server.
C114 proved C114_same_server | Any files. The only thing that may differ is which of several errors is reported. Each order is a function of the contents of a map.
C115 partial C115_tc_partial,C115_violated | False of the code: the TC flag of the request is copied into the reply (C115_violated, a REFUSED of 22 octets). Proved: the statement for requests without TC.
C116 proved C116_workers_end | Any schedule. Shows that the unwrap on a disconnected channel in the worker loop is never reached with an error.
C117 partial C117_blank_owner_partial,C117_violated | False of the code: a blank owner is the current origin, not the last owner (C117_violated: the second address of a.e. is loaded for e.). Proved: files in which the two are the same where a line starts with a blank.
C118 proved C118_whole_udp,C118_whole_tcp | The server loop, the thread pool, the handler and the zone loader composed, from the text of the zone files to the octets sent.
C119 partial C119_servfail_partial,C119_violated | False of the code: NODATA responses count as failures of the server, and the client gets SERVFAIL (C119_violated). Proved: in every honest world the reply is SERVFAIL without records, so the client is never told of records, nor that the name does not exist (all types but NS).
C120 proved C120_threads,C120_once,C120_told,C120_answers,C120_servers | The two servers, their pools, the workers step by step and the cache they share as one transition system (Model/Daemon). C120_answers and C120_servers for schedules that go forward and do not set an entry that outlives 2^32 s (Patient), as C93. C120_servers: each server does what the server of Model/Server does, so C67-C74 apply to it.
C121 proved C121_everyone,C121_all_answered | Safety and the outcome at rest; that every request whose worker is given turns is served is C94_all_answered.
C122 proved C122_progress,C122_bounded,C122_settles | Of the whole program (Model/Daemon), dropping of the pool included. That a worker in the middle of a request is done after finitely many turns is C90 and C93 (the number depends on what the servers answer).
C123 partial C123_violated,C123_loads_partial,C123_order_partial | False of the code if a sub zone lies within another: names in both are referred to the one configured first (C123_violated). Proved otherwise, for files as in C101 and zones other than the root; that both orders are accepted alike is proved for all of those, nested or not.
C124 partial C124_violated,C124_escapes_partial,C124_every_string | False of the code for \DDD, of which only the backslash is dropped (C124_violated). Proved: all other texts, and that every ASCII string can be written. Stated for a TXT record in a given zone (for other records and files see C41), with the reply as a message (strings over 255 octets cannot be encoded: C44).
C125 partial C125_violated,C125_echo_partial | False of the code for questions for the root, repeated with one zero octet too many (C125_violated). Proved: all other questions. Questions sent with compressed names are repeated without compression; requests over 512 octets are not read over UDP.
