{
 "claims": [
  {
   "property": "C01",
   "status": "proved",
   "theorems": [
    "Ariadne.Props.C01_read_bits_exact"
   ],
   "note": ""
  },
  {
   "property": "C02",
   "status": "proved",
   "theorems": [
    "Ariadne.Props.C02_write_bits_exact"
   ],
   "note": ""
  },
  {
   "property": "C03",
   "status": "proved",
   "theorems": [
    "Ariadne.Props.C03_panics_only_on_contract_violation"
   ],
   "note": ""
  },
  {
   "property": "C04",
   "status": "proved",
   "theorems": [
    "Ariadne.Props.C04_write_read_roundtrip"
   ],
   "note": ""
  },
  {
   "property": "C05",
   "status": "proved",
   "theorems": [
    "Ariadne.Props.C05_truncate_exact"
   ],
   "note": ""
  },
  {
   "property": "C06",
   "status": "proved",
   "theorems": [
    "Ariadne.Props.C06_from_string_exact"
   ],
   "note": ""
  },
  {
   "property": "C07",
   "status": "partial",
   "theorems": [
    "Ariadne.Props.C07_violated",
    "Ariadne.Props.C07_labels_le_63_partial"
   ],
   "note": "False of the code: from_string does not limit label length (C07_violated). Proved for names read from the wire."
  },
  {
   "property": "C08",
   "status": "proved",
   "theorems": [
    "Ariadne.Props.C08_name_decoding_terminates"
   ],
   "note": ""
  },
  {
   "property": "C09",
   "status": "partial",
   "theorems": [
    "Ariadne.Props.C09_violated",
    "Ariadne.Props.C09_no_panic_partial"
   ],
   "note": "False of the code: a pointer beyond the end of the message panics (C09_violated). Proved: that is the only way to panic."
  },
  {
   "property": "C10",
   "status": "proved",
   "theorems": [
    "Ariadne.Props.C10_decoded_name_sound"
   ],
   "note": ""
  },
  {
   "property": "C11",
   "status": "partial",
   "theorems": [
    "Ariadne.Props.C11_violated",
    "Ariadne.Props.C11_name_roundtrip_partial"
   ],
   "note": "False of the code for the root name, written as two zero octets (C11_violated). Proved for all other names."
  },
  {
   "property": "C12",
   "status": "partial",
   "theorems": [
    "Ariadne.Props.C12_violated",
    "Ariadne.Props.C12_in_zone_partial"
   ],
   "note": "False of the code for the root zone (C12_violated). Proved for all other zones; the root case is characterised."
  },
  {
   "property": "C13",
   "status": "partial",
   "theorems": [
    "Ariadne.Props.C13_violated",
    "Ariadne.Props.C13_case_partial"
   ],
   "note": "False of the code: matching is case-sensitive (C13_violated). Proved: sound, and complete for lower-case names."
  },
  {
   "property": "C14",
   "status": "partial",
   "theorems": [
    "Ariadne.Props.C14_violated",
    "Ariadne.Props.C14_pointers_partial"
   ],
   "note": "False of the code for offsets >= 8192 (C14_violated). Proved for all offsets below 8192."
  },
  {
   "property": "C15",
   "status": "proved",
   "theorems": [
    "Ariadne.Props.C15_code_tables"
   ],
   "note": ""
  },
  {
   "property": "C16",
   "status": "proved",
   "theorems": [
    "Ariadne.Props.C16_header"
   ],
   "note": ""
  },
  {
   "property": "C17",
   "status": "partial",
   "theorems": [
    "Ariadne.Props.C17_violated",
    "Ariadne.Props.C17_question_partial"
   ],
   "note": "False of the code for the root name (C17_violated). Proved for all other questions."
  },
  {
   "property": "C18",
   "status": "partial",
   "theorems": [
    "Ariadne.Props.C18_violated",
    "Ariadne.Props.C18_record_partial"
   ],
   "note": "False of the code for records with root names (C18_violated). Proved for all others of the seven types."
  },
  {
   "property": "C19",
   "status": "partial",
   "theorems": [
    "Ariadne.Props.C19_violated",
    "Ariadne.Props.C19_txt_encoding_partial"
   ],
   "note": "False of the code: no TXT record with a non-empty first string is ever decoded correctly (C19_violated). Proved: the encoder writes the RFC form."
  },
  {
   "property": "C20",
   "status": "partial",
   "theorems": [
    "Ariadne.Props.C20_violated",
    "Ariadne.Props.C20_wks_partial"
   ],
   "note": "False of the code as soon as there is a port (C20_violated). Proved for records without ports."
  },
  {
   "property": "C21",
   "status": "proved",
   "theorems": [
    "Ariadne.Props.C21_message_roundtrip",
    "Ariadne.Props.C21_plain_message"
   ],
   "note": ""
  },
  {
   "property": "C22",
   "status": "partial",
   "theorems": [
    "Ariadne.Props.C22_violated",
    "Ariadne.Props.C22_decode_returns_partial"
   ],
   "note": "False of the code: out-of-range pointers and WKS records panic or hang (C22_violated). Proved: decoding returns unless an item of the listed harmful forms is reached."
  },
  {
   "property": "C23",
   "status": "partial",
   "theorems": [
    "Ariadne.Props.C23_violated",
    "Ariadne.Props.C23_rdlength_partial"
   ],
   "note": "False of the code (C23_violated: 16-bit wrap in release, WKS). Proved for all types but TXT within the stated limits."
  },
  {
   "property": "C24",
   "status": "proved",
   "theorems": [
    "Ariadne.Props.C24_unknown_skipped"
   ],
   "note": ""
  },
  {
   "property": "C25",
   "status": "proved",
   "theorems": [
    "Ariadne.Props.C25_udp_size"
   ],
   "note": ""
  },
  {
   "property": "C26",
   "status": "proved",
   "theorems": [
    "Ariadne.Props.C26_truncation",
    "Ariadne.Props.C26_no_truncation"
   ],
   "note": ""
  },
  {
   "property": "C27",
   "status": "proved",
   "theorems": [
    "Ariadne.Props.C27_truncated_decodes"
   ],
   "note": ""
  },
  {
   "property": "C28",
   "status": "partial",
   "theorems": [
    "Ariadne.Props.C28_violated",
    "Ariadne.Props.C28_rdlength_partial"
   ],
   "note": "False of the code for WKS records with ports (C28_violated). Proved for all other records (TXT up to 65535 octets)."
  },
  {
   "property": "C29",
   "status": "partial",
   "theorems": [
    "Ariadne.Props.C29_violated",
    "Ariadne.Props.C29_tcp_framing_partial"
   ],
   "note": "False of the code for replies over 65535 octets, whose length wraps (C29_violated). Proved for all shorter ones, and for the reader."
  },
  {
   "property": "C30",
   "status": "proved",
   "theorems": [
    "Ariadne.Props.C30_classification"
   ],
   "note": ""
  },
  {
   "property": "C31",
   "status": "proved",
   "theorems": [
    "Ariadne.Props.C31_fifo_at_most_once"
   ],
   "note": ""
  },
  {
   "property": "C32",
   "status": "proved",
   "theorems": [
    "Ariadne.Props.C32_drop_waits_for_all_jobs",
    "Ariadne.Props.C32_drop_never_hangs"
   ],
   "note": "The first when no job panics; the second, for all executions: drop ends, with or without a panic of its own."
  },
  {
   "property": "C33",
   "status": "partial",
   "theorems": [
    "Ariadne.Props.C33_violated",
    "Ariadne.Props.C33_panics_cost_one_worker_partial"
   ],
   "note": "False of the code: threads are not replaced (C33_violated). Proved: each panicking job costs exactly one thread, and nothing else fails before all are gone."
  },
  {
   "property": "C34",
   "status": "proved",
   "theorems": [
    "Ariadne.Props.C34_no_deadlock_and_drains"
   ],
   "note": ""
  },
  {
   "property": "C35",
   "status": "proved",
   "theorems": [
    "Ariadne.Props.C35_zone_store"
   ],
   "note": ""
  },
  {
   "property": "C36",
   "status": "partial",
   "theorems": [
    "Ariadne.Props.C36_violated",
    "Ariadne.Props.C36_auth_zone_partial"
   ],
   "note": "False if a configured sub zone contains the zone itself (C36_violated). Proved if none does; every clause but the last is proved in general."
  },
  {
   "property": "C37",
   "status": "partial",
   "theorems": [
    "Ariadne.Props.C37_violated",
    "Ariadne.Props.C37_consistent_partial"
   ],
   "note": "False for a server of the root zone: missing glue is not found out (C37_violated). Proved for all other zones."
  },
  {
   "property": "C38",
   "status": "partial",
   "theorems": [
    "Ariadne.Props.C38_violated",
    "Ariadne.Props.C38_no_panic_partial"
   ],
   "note": "False of the code: an escape in the last word of a line panics (C38_violated). Proved for all files in which no word or quoted string with an escape goes on to the end of its line (escapes elsewhere are fine)."
  },
  {
   "property": "C39",
   "status": "partial",
   "theorems": [
    "Ariadne.Props.C39_violated",
    "Ariadne.Props.C39_terminates_partial"
   ],
   "note": "False of the code: a no-break space in a TXT record loops forever (C39_violated). Proved for files without include cycles in which, outside quoted strings, comments and escapes, runs of white space begin with a space or a tab."
  },
  {
   "property": "C40",
   "status": "partial",
   "theorems": [
    "Ariadne.Props.C40_violated",
    "Ariadne.Props.C40_comments_partial",
    "Ariadne.Props.C40_group_partial",
    "Ariadne.Props.C40_peek_partial"
   ],
   "note": "Fails for words with a backslash that end a line: reading them panics there but not before a comment or blank (C40_violated). Proved: comments never matter unless right after such a word; line breaks in parentheses equal blanks for every reader that skips blanks, with the same exception; the peeking clause holds in full for every reachable tokenizer state."
  },
  {
   "property": "C41",
   "status": "partial",
   "theorems": [
    "Ariadne.Props.C41_records_partial",
    "Ariadne.Props.C41_sub_partial",
    "Ariadne.Props.C41_zones_partial",
    "Ariadne.Props.C41_violated"
   ],
   "note": "For every file of the grammar (words, quoted strings, parentheses, comments, all record types, $ORIGIN, nested $INCLUDE): it loads and the store returns exactly the records it stands for. Left out, because the loader rejects them (C41_violated): names and unquoted strings that look like numbers, '@' in data other than CNAME, relative PTR targets, SOA without class, the root zone. Not in the grammar: escapes in words and of the form \\DDD (escapes \\X in quoted strings are), WKS services."
  },
  {
   "property": "C42",
   "status": "partial",
   "theorems": [
    "Ariadne.Props.C42_ttl_class_partial",
    "Ariadne.Props.C42_violated"
   ],
   "note": "All five spellings at every place of a file, with the last stated TTL as default. Missing: the TTL stated in the SOA record is not inherited by the next record (C42_violated)."
  },
  {
   "property": "C43",
   "status": "proved",
   "theorems": [
    "Ariadne.Props.C43_no_leak",
    "Ariadne.Props.C43_grammar"
   ],
   "note": "C43_no_leak: any state, store, included file and following lines; C43_grammar: files of the grammar, which are also shown to load."
  },
  {
   "property": "C44",
   "status": "partial",
   "theorems": [
    "Ariadne.Props.C44_violated",
    "Ariadne.Props.C44_servable_partial"
   ],
   "note": "False of the code: strings over 255 octets are accepted but cannot be encoded (C44_violated). Proved if there are none."
  },
  {
   "property": "C45",
   "status": "partial",
   "theorems": [
    "Ariadne.Props.C45_violated",
    "Ariadne.Props.C45_refused_partial"
   ],
   "note": "False of the code for a server of the root zone, which refuses all names but the root (C45_violated). Proved for every other zone."
  },
  {
   "property": "C46",
   "status": "proved",
   "theorems": [
    "Ariadne.Props.C46_authoritative"
   ],
   "note": "For every loaded configuration, request and record set, for any hash iteration order."
  },
  {
   "property": "C47",
   "status": "partial",
   "theorems": [
    "Ariadne.Props.C47_violated",
    "Ariadne.Props.C47_referral_partial"
   ],
   "note": "False of the code: sub zones outside the zone are accepted by the loader, but names in them are refused (C47_violated). Proved for names inside a non-root zone."
  },
  {
   "property": "C48",
   "status": "partial",
   "theorems": [
    "Ariadne.Props.C48_violated",
    "Ariadne.Props.C48_nxdomain_partial"
   ],
   "note": "False of the code: an existing name without the queried type gets NXDOMAIN (C48_violated). Proved: exact characterisation of when NXDOMAIN is sent and what is in the reply."
  },
  {
   "property": "C49",
   "status": "partial",
   "theorems": [
    "Ariadne.Props.C49_violated",
    "Ariadne.Props.C49_echo_partial"
   ],
   "note": "False of the code: two-question requests are echoed in full (C49_violated). Proved: header echo and counts for every message."
  },
  {
   "property": "C50",
   "status": "partial",
   "theorems": [
    "Ariadne.Props.C50_violated",
    "Ariadne.Props.C50_replies_partial"
   ],
   "note": "False of the code: an AAAA query panics the worker (C50_violated). Proved: exactly one reply, UDP and TCP, if all questions are of known types and no loaded string is over 255 octets."
  },
  {
   "property": "C51",
   "status": "partial",
   "theorems": [
    "Ariadne.Props.C51_violated",
    "Ariadne.Props.C51_error_partial"
   ],
   "note": "False of the code: every such request panics the server (C51_violated). Proved: the reply handed to the encoder has the right id and code."
  },
  {
   "property": "C52",
   "status": "proved",
   "theorems": [
    "Ariadne.Props.C52_end_to_end"
   ],
   "note": "Composition of UDP read, decoding, handler, truncating encoder, send loop and a client's decoder."
  },
  {
   "property": "C53",
   "status": "proved",
   "theorems": [
    "Ariadne.Props.C53_last_unexpired",
    "Ariadne.Props.C53_set_get"
   ],
   "note": "Refinement of the history specification for every sequence of calls and non-decreasing clock readings."
  },
  {
   "property": "C54",
   "status": "proved",
   "theorems": [
    "Ariadne.Props.C54_clean_unobservable"
   ],
   "note": ""
  },
  {
   "property": "C55",
   "status": "partial",
   "theorems": [
    "Ariadne.Props.C55_violated",
    "Ariadne.Props.C55_served_ttl_partial"
   ],
   "note": "False of the code: the clock is read before waiting for the lock, so a record stored meanwhile is served with a TTL larger than stored (C55_violated). Proved: never expired entries, TTL at most the life of the entry from the start of the search; the full bound for entries other threads did not touch during the wait."
  },
  {
   "property": "C56",
   "status": "proved",
   "theorems": [
    "Ariadne.Props.C56_linearizable"
   ],
   "note": "Transition system with every interleaving of the individual steps (lock, clock readings, map accesses, unlock, return) of any number of calls."
  },
  {
   "property": "C57",
   "status": "proved",
   "theorems": [
    "Ariadne.Props.C57_extract"
   ],
   "note": "Multiset equality with the two halves of the list, for every list."
  },
  {
   "property": "C58",
   "status": "proved",
   "theorems": [
    "Ariadne.Props.C58_sorted",
    "Ariadne.Props.C58_perm"
   ],
   "note": ""
  },
  {
   "property": "C59",
   "status": "partial",
   "theorems": [
    "Ariadne.Props.C59_violated",
    "Ariadne.Props.C59_wrong_owner",
    "Ariadne.Props.C59_chain_partial"
   ],
   "note": "False of the code: a CNAME with TTL 0 that points to its own owner is accepted (C59_violated), and cached NS records may belong to another zone (C59_wrong_owner). Proved: everything else, for every server behaviour and friendly threads."
  },
  {
   "property": "C60",
   "status": "partial",
   "theorems": [
    "Ariadne.Props.C60_violated",
    "Ariadne.Props.C60_terminates_partial",
    "Ariadne.Props.C60_debug",
    "Ariadne.Props.C60_fuel_irrelevant"
   ],
   "note": "False of the code in release builds, where a WKS record hangs the decoder (C60_violated). Proved: this is the only reason; debug builds always terminate. The bound on nested lookups is the number of valid names."
  },
  {
   "property": "C61",
   "status": "proved",
   "theorems": [
    "Ariadne.Props.C61_packets",
    "Ariadne.Props.C61_servers"
   ],
   "note": "For every environment, state, fuel and server behaviour."
  },
  {
   "property": "C62",
   "status": "partial",
   "theorems": [
    "Ariadne.Props.C62_violated",
    "Ariadne.Props.C62_downwards_partial"
   ],
   "note": "False of the code: the checks compare text, so example.com. is referred to ample.com. (C62_violated). Proved: textual suffix and length; the full statement if the suffix starts at a label boundary."
  },
  {
   "property": "C63",
   "status": "partial",
   "theorems": [
    "Ariadne.Props.C63_violated",
    "Ariadne.Props.C63_cached_partial",
    "Ariadne.Props.C63_poisoned"
   ],
   "note": "False of the code: the address of any NS target is cached (C63_violated, C63_poisoned). Proved: exactly which records are."
  },
  {
   "property": "C64",
   "status": "partial",
   "theorems": [
    "Ariadne.Props.C64_violated",
    "Ariadne.Props.C64_panics_partial"
   ],
   "note": "False of the code: NXDOMAIN for the name of a server panics the lookup (C64_violated). Proved: this and a decoder panic are the only reasons."
  },
  {
   "property": "C65",
   "status": "partial",
   "theorems": [
    "Ariadne.Props.C65_violated",
    "Ariadne.Props.C65_other_id_partial",
    "Ariadne.Props.C65_retry",
    "Ariadne.Props.C65_used"
   ],
   "note": "False of the code: a datagram with another id is decoded first and may panic the decoder (C65_violated). Proved for every datagram on which the decoder returns."
  },
  {
   "property": "C66",
   "status": "proved",
   "theorems": [
    "Ariadne.Props.C66_denied"
   ],
   "note": ""
  },
  {
   "property": "C67",
   "status": "partial",
   "theorems": [
    "Ariadne.Props.C67_violated",
    "Ariadne.Props.C67_reply_partial",
    "Ariadne.Props.C67_counts_partial"
   ],
   "note": "False of the code only in the counts: any limit on redirections is accepted, and after a chain of 65535 aliases the header announces 0 answers (C67_violated). Proved: everything else, and the counts if the limit is at most 65490 (records come from datagrams, so a section never has more than that limit and 45)."
  },
  {
   "property": "C68",
   "status": "partial",
   "theorems": [
    "Ariadne.Props.C68_violated",
    "Ariadne.Props.C68_header_only",
    "Ariadne.Props.C68_error_partial",
    "Ariadne.Props.C68_replies_partial"
   ],
   "note": "False of the code: AAAA queries and requests of which only the header decodes panic the handler. Proved: every other message gets exactly one reply unless a server's datagram panics or hangs the decoder or denies the address of a name server."
  },
  {
   "property": "C69",
   "status": "proved",
   "theorems": [
    "Ariadne.Props.C69_distinct_zones",
    "Ariadne.Props.C69_no_cname"
   ],
   "note": ""
  },
  {
   "property": "C70",
   "status": "partial",
   "theorems": [
    "Ariadne.Props.C70_violated",
    "Ariadne.Props.C70_nearest_partial"
   ],
   "note": "False of the code for the root zone, whose cached servers are never used (C70_violated). Proved for all other zones."
  },
  {
   "property": "C71",
   "status": "partial",
   "theorems": [
    "Ariadne.Props.C71_violated",
    "Ariadne.Props.C71_tcp_dead",
    "Ariadne.Props.C71_nameserver_partial",
    "Ariadne.Props.C71_resolver_partial"
   ],
   "note": "False of the code: a TCP read time-out of 0 is accepted and then no TCP connection is served. Proved: everything else, as an equivalence, and that the programs get past start-up."
  },
  {
   "property": "C72",
   "status": "proved",
   "theorems": [
    "Ariadne.Props.C72_served_once",
    "Ariadne.Props.C72_nameserver",
    "Ariadne.Props.C72_resolver",
    "Ariadne.Props.C72_nameserver_tcp",
    "Ariadne.Props.C72_resolver_tcp"
   ],
   "note": "Transition system of the listening thread, the pool and arrivals, for any handler; instances for the name server and the resolver."
  },
  {
   "property": "C73",
   "status": "partial",
   "theorems": [
    "Ariadne.Props.C73_violated",
    "Ariadne.Props.C73_survives_partial",
    "Ariadne.Props.C73_tcp_violated",
    "Ariadne.Props.C73_tcp_survives_partial"
   ],
   "note": "False of the code: one AAAA query for each thread kills all threads, the next request makes execute panic, and the panic in ThreadPool::drop while unwinding aborts the process (C73_violated, for every zone, configuration and number of threads). Proved: only that many panicking requests can do it, and the name server survives all manageable requests. The same over TCP, where connections that cannot be duplicated (no file descriptors left) do it too."
  },
  {
   "property": "C74",
   "status": "proved",
   "theorems": [
    "Ariadne.Props.C74_drains"
   ],
   "note": "Bound on the number of steps and what holds when they end."
  },
  {
   "property": "C75",
   "status": "partial",
   "theorems": [
    "Ariadne.Props.C75_violated",
    "Ariadne.Props.C75_lifecycle_partial",
    "Ariadne.Props.C75_clean_partial"
   ],
   "note": "False of the code: the wake-up message is lost if the other server does not listen yet, and the main thread panics (C75_violated). Proved: no shut-down before a server ended, at most seven steps to the end of the process, both servers finished when start_servers returns; the clean end if both were woken up."
  },
  {
   "property": "C76",
   "status": "proved",
   "theorems": [
    "Ariadne.Props.C76_tracing_is_transparent",
    "Ariadne.Props.C76_params_irrelevant"
   ],
   "note": "The resolver with its trace, against the resolver without it."
  },
  {
   "property": "C77",
   "status": "partial",
   "theorems": [
    "Ariadne.Props.C77_violated",
    "Ariadne.Props.C77_silent_partial"
   ],
   "note": "False of the code: add_sub_trace does not ask whether the trace is silent (C77_violated, one nested lookup). Proved: nothing but nested empty traces, and empty unless there was a lookup for the address of a name server."
  },
  {
   "property": "C78",
   "status": "proved",
   "theorems": [
    "Ariadne.Props.C78_trace_is_faithful"
   ],
   "note": "Lookups that panic or do not end have no trace."
  },
  {
   "property": "C79",
   "status": "partial",
   "theorems": [
    "Ariadne.Props.C79_violated",
    "Ariadne.Props.C79_display",
    "Ariadne.Props.C79_nesting",
    "Ariadne.Props.C79_logging_partial"
   ],
   "note": "False of the code: a debug build panics (u8 overflow) while formatting a trace nested 256 deep, before the reply is sent (C79_violated; in the witness other threads empty the cache between steps). Proved for release builds, for logs without info messages and for traces nested less than 256 deep."
  },
  {
   "property": "C80",
   "status": "proved",
   "theorems": [
    "Ariadne.Props.C80_garbage_is_ignored"
   ],
   "note": "NoHeader is defined on the bits of the packet."
  },
  {
   "property": "C81",
   "status": "proved",
   "theorems": [
    "Ariadne.Props.C81_partial_sends",
    "Ariadne.Props.C81_progress"
   ],
   "note": "Added after a seeded edit of the send loop survived."
  },
  {
   "property": "C82",
   "status": "partial",
   "theorems": [
    "Ariadne.Props.C82_violated",
    "Ariadne.Props.C82_ns_incomplete",
    "Ariadne.Props.C82_facts_partial",
    "Ariadne.Props.C82_whole_partial"
   ],
   "note": "False of the code: truncated responses (TC set) are returned and cached as if whole (C82_violated), and NS sets stripped of servers without glue are cached and served (C82_ns_incomplete). Proved: never a record that is not a fact, denials only of names without records, the cache stays factual; the full statement when nothing is truncated, for all types but NS."
  },
  {
   "property": "C83",
   "status": "proved",
   "theorems": [
    "Ariadne.Props.C83_answer_is_found",
    "Ariadne.Props.C83_denial_is_found",
    "Ariadne.Props.C83_failure_is_reported"
   ],
   "note": "Stated by LeadsTo and Served in Spec/Delegation.lean; worlds with a silent root server and a failing server of com., and with servers every first query to which is lost, meet the hypotheses."
  },
  {
   "property": "C84",
   "status": "proved",
   "theorems": [
    "Ariadne.Props.C84_answers_are_kept"
   ],
   "note": "The second lookup is of the name the aliases lead to (the queried name if there are none)."
  },
  {
   "property": "C85",
   "status": "proved",
   "theorems": [
    "Ariadne.Props.C85_server_answers",
    "Ariadne.Props.C85_server_denies",
    "Ariadne.Props.C85_server_refers",
    "Ariadne.Props.C85_zone_is_resolved",
    "Ariadne.Props.C85_zone_is_denied",
    "Ariadne.Props.C85_sub_zone_is_found"
   ],
   "note": "Stated by Runs, AllRun and Fits in Spec/Together.lean; the example has root servers, a name server of e. with the sub zone s.e. and one of s.e."
  },
  {
   "property": "C86",
   "status": "proved",
   "theorems": [
    "Ariadne.Props.C86_counts_are_covered",
    "Ariadne.Props.C86_requests"
   ],
   "note": "The announced counts are read from the bytes at the places of RFC 1035 4.1.1."
  },
  {
   "property": "C87",
   "status": "partial",
   "theorems": [
    "Ariadne.Props.C87_violated",
    "Ariadne.Props.C87_resolver_partial",
    "Ariadne.Props.C87_nameserver_partial",
    "Ariadne.Props.C87_cache_stays"
   ],
   "note": "False of the code: a request with 10921 to 13104 questions for the root is repeated in a reply of more than 65535 octets, whose length wraps. Proved for the resolver: framed for every request with at most 252 questions, every network behaviour and every redirection limit up to 52; for the name server: framed for every request with at most 252 questions if no set of records or referral of the loaded zones is longer than the 65263 octets left by header and question. Missing: longer ones (see C29), other requests."
  },
  {
   "property": "C88",
   "status": "partial",
   "theorems": [
    "Ariadne.Props.C88_violated",
    "Ariadne.Props.C88_partial",
    "Ariadne.Props.C88_session_partial"
   ],
   "note": "False of the code: NS records outlive the addresses of their servers in the cache, after which the zone cannot be resolved until they expire too. Proved: for name spaces in order (Spec/WellRun.lean: aliases, glueless servers, servers down, other threads), during any period shorter than the TTLs of NS records and server addresses, a coherent cache stays coherent and every lookup returns what the servers say. Missing: lookups of type NS and CNAME, and longer periods where the TTLs of NS records are not above those of the addresses."
  },
  {
   "property": "C89",
   "status": "proved",
   "theorems": [
    "Ariadne.Props.C89_udp",
    "Ariadne.Props.C89_tcp",
    "Ariadne.Props.C89_session"
   ],
   "note": "For every world of Serving (Props/Client.lean): the invariant of C88, records of servers plain (no TXT, no WKS with ports, no root name in data, C19/C20), and is kept by each request. Over UDP the limit on redirections may be up to 65490, over TCP up to 52 (so that the length fits, C87)."
  },
  {
   "property": "C90",
   "status": "proved",
   "theorems": [
    "Ariadne.Props.C90_lookups_in_threads",
    "Ariadne.Props.C90_panics",
    "Ariadne.Props.C90_answers",
    "Ariadne.Props.C90_ends"
   ],
   "note": "Model/Tasks has the lookup again as steps of a thread (proved equal to the model of the lookup, lookupTask_is); an access to the cache is one step (the lock, C56). Proved by showing that what a thread has seen is a single lookup in a world whose other threads keep the cache good. C90_panics and C90_answers are the thread versions of the parts of C64 and C59 that hold."
  },
  {
   "property": "C91",
   "status": "proved",
   "theorems": [
    "Ariadne.Props.C91_facts_in_threads"
   ],
   "note": "B says that no response is truncated. NS records: see C82."
  },
  {
   "property": "C92",
   "status": "proved",
   "theorems": [
    "Ariadne.Props.C92_all_resolved",
    "Ariadne.Props.C92_all_answered"
   ],
   "note": "The hypotheses are those of C88 (C88_partial), for each thread; the TTLs of what is stored end less than 2^32 seconds after the beginning."
  },
  {
   "property": "C93",
   "status": "proved",
   "theorems": [
    "Ariadne.Props.C93_service_in_threads",
    "Ariadne.Props.C93_all_served"
   ],
   "note": "Worker threads of the pools (each job is a thread of its own, since workers keep nothing between jobs); the exceptions are named (C22, C60, C64); the steps are proved to be those of serveUdp/serveTcp (Steps.serve_run)."
  },
  {
   "property": "C94",
   "status": "proved",
   "theorems": [
    "Ariadne.Props.C94_answers",
    "Ariadne.Props.C94_all_answered"
   ],
   "note": "The hypotheses are those of C89 for each thread; max_cname_redir <= 52 (so that a TCP reply fits its length field, C87)."
  },
  {
   "property": "C95",
   "status": "partial",
   "theorems": [
    "Ariadne.Props.C95_ttl_partial",
    "Ariadne.Props.C95_violated"
   ],
   "note": "C95_statement is false for CNAME records (C95_violated: given out after the received TTL ended); proved for all other records, and for CNAME records that they have a source whose TTL is no smaller."
  },
  {
   "property": "C96",
   "status": "proved",
   "theorems": [
    "Ariadne.Props.C96_in_order",
    "Ariadne.Props.C96_session",
    "Ariadne.Props.C96_threads"
   ],
   "note": "Everything proved of name spaces in order (C88, C89, C92, C94) holds of zones served by this program that fit together (Network.Sound); the root servers are not of this program (it cannot serve the root, C45) and enter as a hypothesis."
  },
  {
   "property": "C97",
   "status": "partial",
   "theorems": [
    "Ariadne.Props.C97_layout_partial",
    "Ariadne.Props.C97_violated"
   ],
   "note": "C97_statement is false after a word with a backslash (C97_violated); C97_layout_partial proves it for all edits elsewhere."
  },
  {
   "property": "C98",
   "status": "partial",
   "theorems": [
    "Ariadne.Props.C98_ttl_in_threads_partial",
    "Ariadne.Props.C98_violated"
   ],
   "note": "C98_statement is false (C98_violated: a race makes an alias outlive its TTL); proved for all other records that they do not outlive the received TTL, and for all that they have a source."
  },
  {
   "property": "C99",
   "status": "proved",
   "theorems": [
    "Ariadne.Props.C99_queries",
    "Ariadne.Props.C99_queries_for_clients"
   ],
   "note": "Stated at the moment of sending, for lookups and for served requests. Receipt means: in a decodable datagram that a thread got in reply to a query."
  },
  {
   "property": "C100",
   "status": "proved",
   "theorems": [
    "Ariadne.Props.C100_accepts"
   ],
   "note": "Stated on the records the files stand for (FitTogether), both directions; outside the text format of C41 (its partial grammar, see there) nothing is claimed."
  },
  {
   "property": "C101",
   "status": "proved",
   "theorems": [
    "Ariadne.Props.C101_text"
   ],
   "note": "The text format is that of C41_records_partial (see C41 for what it leaves out); the reply is given as a message (expectedReply), what is sent as its encoding by the models of UDP and TCP replies."
  },
  {
   "property": "C102",
   "status": "proved",
   "theorems": [
    "Ariadne.Props.C102_udp",
    "Ariadne.Props.C102_tcp"
   ],
   "note": "As C101."
  },
  {
   "property": "C103",
   "status": "proved",
   "theorems": [
    "Ariadne.Props.C103_nameserver",
    "Ariadne.Props.C103_resolver"
   ],
   "note": "One direction: from the reply over TCP to that over UDP (a record that cannot be encoded, beyond the 512th octet, panics over TCP only). Frames longer than 65535 octets are included, with the wrapped length of C29."
  },
  {
   "property": "C104",
   "status": "partial",
   "theorems": [
    "Ariadne.Props.C104_queries_partial",
    "Ariadne.Props.C104_violated"
   ],
   "note": "False of the code for the root, whose name is written with an octet too many, and for names of 256 octets (C104_violated). Proved: every other query is in the form prescribed."
  },
  {
   "property": "C105",
   "status": "proved",
   "theorems": [
    "Ariadne.Props.C105_told"
   ],
   "note": "The exception for the TTLs of aliases is part of the statement (see C98_violated)."
  },
  {
   "property": "C106",
   "status": "proved",
   "theorems": [
    "Ariadne.Props.C106_answers_for_clients"
   ],
   "note": "The exceptions of C59 (an alias that points to its own owner, owners of NS records) are part of the statement."
  },
  {
   "property": "C107",
   "status": "partial",
   "theorems": [
    "Ariadne.Props.C107_work_partial",
    "Ariadne.Props.C107_with_addresses",
    "Ariadne.Props.C107_violated"
   ],
   "note": "False of the code: servers can lead the resolver from the name of one server to the next (C107_violated). Proved: the statement when no addresses of servers have to be found out; otherwise the same limits for each of the names of servers, the number of which at each depth is limited by those of the depth before."
  },
  {
   "property": "C108",
   "status": "proved",
   "theorems": [
    "Ariadne.Props.C108_only_the_question"
   ],
   "note": "Compares two histories of the service, step by step."
  },
  {
   "property": "C109",
   "status": "partial",
   "theorems": [
    "Ariadne.Props.C109_cached_partial",
    "Ariadne.Props.C109_violated"
   ],
   "note": "False of the code: the RD flag of a request is ignored (C109_violated). Proved: the other two parts, whatever the flag."
  },
  {
   "property": "C110",
   "status": "partial",
   "theorems": [
    "Ariadne.Props.C110_taken_partial",
    "Ariadne.Props.C110_violated"
   ],
   "note": "False of the code: the question section of a response is not looked at, so the denial of another name is taken for a denial of this one (C110_violated). Proved: all the rest."
  },
  {
   "property": "C111",
   "status": "partial",
   "theorems": [
    "Ariadne.Props.C111_names_told_apart_partial",
    "Ariadne.Props.C111_violated"
   ],
   "note": "False of the code: a dot inside a label on the wire is taken for the border between two labels (C111_violated). Proved: the statement for labels without dots (and pointers below octet 8192, C14)."
  },
  {
   "property": "C112",
   "status": "partial",
   "theorems": [
    "Ariadne.Props.C112_only_formerr_partial",
    "Ariadne.Props.C112_violated"
   ],
   "note": "False of the code: replies are answered with FORMERR, and two name servers answer each other without end (C112_violated, for every name). Proved: nothing else happens."
  },
  {
   "property": "C113",
   "status": "proved",
   "theorems": [
    "Ariadne.Props.C113_only_the_question"
   ],
   "note": "The counterpart of C108 for the name server."
  },
  {
   "property": "C114",
   "status": "proved",
   "theorems": [
    "Ariadne.Props.C114_same_server"
   ],
   "note": "Any files. The only thing that may differ is which of several errors is reported. Each order is a function of the contents of a map."
  },
  {
   "property": "C115",
   "status": "partial",
   "theorems": [
    "Ariadne.Props.C115_tc_partial",
    "Ariadne.Props.C115_violated"
   ],
   "note": "False of the code: the TC flag of the request is copied into the reply (C115_violated, a REFUSED of 22 octets). Proved: the statement for requests without TC."
  },
  {
   "property": "C116",
   "status": "proved",
   "theorems": [
    "Ariadne.Props.C116_workers_end"
   ],
   "note": "Any schedule. Shows that the unwrap on a disconnected channel in the worker loop is never reached with an error."
  },
  {
   "property": "C117",
   "status": "partial",
   "theorems": [
    "Ariadne.Props.C117_blank_owner_partial",
    "Ariadne.Props.C117_violated"
   ],
   "note": "False of the code: a blank owner is the current origin, not the last owner (C117_violated: the second address of a.e. is loaded for e.). Proved: files in which the two are the same where a line starts with a blank."
  },
  {
   "property": "C118",
   "status": "proved",
   "theorems": [
    "Ariadne.Props.C118_whole_udp",
    "Ariadne.Props.C118_whole_tcp"
   ],
   "note": "The server loop, the thread pool, the handler and the zone loader composed, from the text of the zone files to the octets sent."
  },
  {
   "property": "C119",
   "status": "partial",
   "theorems": [
    "Ariadne.Props.C119_servfail_partial",
    "Ariadne.Props.C119_violated"
   ],
   "note": "False of the code: NODATA responses count as failures of the server, and the client gets SERVFAIL (C119_violated). Proved: in every honest world the reply is SERVFAIL without records, so the client is never told of records, nor that the name does not exist (all types but NS)."
  },
  {
   "property": "C120",
   "status": "proved",
   "theorems": [
    "Ariadne.Props.C120_threads",
    "Ariadne.Props.C120_once",
    "Ariadne.Props.C120_told",
    "Ariadne.Props.C120_answers",
    "Ariadne.Props.C120_servers"
   ],
   "note": "The two servers, their pools, the workers step by step and the cache they share as one transition system (Model/Daemon). C120_answers and C120_servers for schedules that go forward and do not set an entry that outlives 2^32 s (Patient), as C93. C120_servers: each server does what the server of Model/Server does, so C67-C74 apply to it."
  },
  {
   "property": "C121",
   "status": "proved",
   "theorems": [
    "Ariadne.Props.C121_everyone",
    "Ariadne.Props.C121_all_answered"
   ],
   "note": "Safety and the outcome at rest; that every request whose worker is given turns is served is C94_all_answered."
  },
  {
   "property": "C122",
   "status": "proved",
   "theorems": [
    "Ariadne.Props.C122_progress",
    "Ariadne.Props.C122_bounded",
    "Ariadne.Props.C122_settles"
   ],
   "note": "Of the whole program (Model/Daemon), dropping of the pool included. That a worker in the middle of a request is done after finitely many turns is C90 and C93 (the number depends on what the servers answer)."
  },
  {
   "property": "C123",
   "status": "partial",
   "theorems": [
    "Ariadne.Props.C123_violated",
    "Ariadne.Props.C123_loads_partial",
    "Ariadne.Props.C123_order_partial"
   ],
   "note": "False of the code if a sub zone lies within another: names in both are referred to the one configured first (C123_violated). Proved otherwise, for files as in C101 and zones other than the root; that both orders are accepted alike is proved for all of those, nested or not."
  },
  {
   "property": "C124",
   "status": "partial",
   "theorems": [
    "Ariadne.Props.C124_violated",
    "Ariadne.Props.C124_escapes_partial",
    "Ariadne.Props.C124_every_string"
   ],
   "note": "False of the code for \\DDD, of which only the backslash is dropped (C124_violated). Proved: all other texts, and that every ASCII string can be written. Stated for a TXT record in a given zone (for other records and files see C41), with the reply as a message (strings over 255 octets cannot be encoded: C44)."
  },
  {
   "property": "C125",
   "status": "partial",
   "theorems": [
    "Ariadne.Props.C125_violated",
    "Ariadne.Props.C125_echo_partial"
   ],
   "note": "False of the code for questions for the root, repeated with one zero octet too many (C125_violated). Proved: all other questions. Questions sent with compressed names are repeated without compression; requests over 512 octets are not read over UDP."
  }
 ]
}