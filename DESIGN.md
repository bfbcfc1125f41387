# Formal model of ariadne-dns in Lean 4

## Layout

* `lean/Verif/Model/*` – the model, one file per Rust file (or group), every definition citing file:lines.
* `lean/Verif/Spec/*` – small specifications used by the statements (bits, labels, RFC encodings, sequential cache ...), written without the model's helpers.
* `lean/Verif/Lemmas/*` – proof machinery.
* `lean/Verif/Props/*` – one theorem (or group) per property, with a concrete example of its hypotheses beside it.

## Modelling conventions

* Rust results: `Out ε α` with `ok`, `err`, `panic kind`, `diverge`. `panic` covers `assert!`, indexing, `unwrap`,
  explicit `panic!` and (build profile `debug`) arithmetic overflow. In profile `release` fixed-width arithmetic
  wraps. Theorems are quantified over both profiles unless they say otherwise.
* `loop`s are fuelled functions; running out of fuel is `diverge`. Termination theorems show that a fuel computed from
  the input suffices; non-termination theorems show `diverge` for every fuel.
* `usize` is unbounded `Nat` (inputs are far below 2^64 bits); `u8/u16/u32` are fixed width.
* Rust `String` is `List Char`, with its UTF-8 bytes given by core Lean's `String.utf8EncodeChar` / `ByteArray.utf8Decode?`.
* `HashMap` is a function-like association list with unique keys; where code iterates over it the iteration order is an
  arbitrary permutation.
* Threads: transition systems with every interleaving allowed; `Mutex`, `mpsc` modelled as atomic queue operations.
* Time: each operation carries the clock reading(s) it takes; readings never decrease (`Instant`).
* The network, as seen by the resolver, is an arbitrary history-dependent function from queries to byte datagrams or
  I/O errors (an adversary). Random ids are an arbitrary stream.
* Files: an arbitrary function from paths to lists of lines (or an I/O error).

## Plan per property

| id | modelled | proof |
|----|----------|-------|
| C01–C05 | `BitsBuf`, all methods, byte list + positions | bitwise extensionality (`Nat.testBit`), invariant by induction on operation sequences |
| C06,C07 | `validate_name`, `validate_label` on char lists | equivalence with a label-list grammar; C07 is false (no 63 check): counterexample + bound for the wire-decoded names |
| C08–C10,C14 | `Name::from_bytes` with fuel and buffer state | measure (jumps left, name bytes left); C09 false (out-of-range pointer): counterexample + exact panic condition; C14 false above 8191 |
| C11 | `to_bytes` | induction over labels; root name shown to break it |
| C12,C13 | `is_in_zone` | reverse-split induction; C13 false: counterexample + partial |
| C15 | all tables | case analysis over all values and all numbers |
| C16–C21 | header, question, record, message codecs | compositional decoder relation `Decodes d bytes value` valid at every offset; C19, C20 false |
| C22 | whole decoder | termination and panic characterisation; false in general (pointers, WKS, sizes), partial: exact culprits |
| C23,C28 | RDLENGTH | per-record; C23 false in release above 8191 and for WKS/TXT, partial for the others; C28 false for WKS, partial for the others |
| C24 | skip of unknown types | decoder relation for the unknown item |
| C25–C27 | `encode_to_bytes_trunc` | loop invariant: buffer = 12 zero bytes ++ encodings of a prefix |
| C29,C30 | UDP/TCP readers and writers over byte streams | direct; length above 65535 violates C29, partial below |
| C31–C34 | thread pool as transition system | inductive invariants; C33 false, counterexample execution |
| C35 | zone store | refinement to the list of inserted records; permutation invariance |
| C36–C44 | tokenizer, record parsers, loaders | induction on fuel/run; C38, C39, C44 false with witness files, partial otherwise |
| C45–C52 | name server handler as function from read result to replies | case analysis; C48, C50, C51 false with witnesses |
| C53–C56 | cache with timestamps | simulation by a specification map; linearization = mutex order |
| C57,C58 | helper functions | permutation proofs |
| C59–C66,C69,C70 | resolver with adversarial network | fuelled mutual recursion, invariants; C62, C63, C64 false with witnesses |
| C67,C68 | resolver handler | case analysis; C68 false; C67 false for chains of 65535 aliases (Props/LongChain.lean, by C88 for a name space with such a chain) |
| C71 | configuration validation | case analysis |
| C72–C74 | `start_udp_server`, `start_tcp_server` with pool and arrivals as one transition system, any handler | invariant over the pool's; measure; C73 false with witness |
| C75 | `start_servers`: main thread and both servers | invariant, measure, progress; false with witness schedule |
| C76–C79 | `trace.rs` and the resolver once more with its trace; display of nested traces | simulation of the untraced resolver, relation between trace and event log by induction on fuel; C77, C79 false with witnesses |
| C80–C81 | `handle_request` on unreadable packets; the loop in `UdpResponse::reply` | exact characterisation from the header theorem; induction on the results of `send_to` |
| C82 | the lookup in a world of honest servers, given as the set of true records | invariant on the cache through the whole recursion; false (TC ignored) with witness, parts proved |
| C83 | the lookup from a cold cache along a chain of referrals with failing servers | induction on the number of referrals, counting of servers that are down |
| C84 | two lookups, the second from any later state | what the last step of a lookup leaves in the cache, by induction on its rounds |
| C85 | the resolver in a world where addresses run the name server model | C46–C48 and the round trips of C21/C26 give the hypotheses of C83 |
| C86 | decoder, request readers | a logic over the decoder: every item that is decoded or skipped consumes at least 5 or 11 octets |
| C87 | both servers over TCP | witness family by induction over the questions; sizes of received records (Keeps logic over the resolver); sizes of stored records against the sizes of the RFC (name server) |
| C88 | lookup with cache, servers, aliases, sub-lookups | witness for the violation; invariant of the cache (Coherent) kept by every step, well-founded order of zones for sub-lookups |
| C89 | handler, lookup, encoders and servers of the resolver together | C88 composed with the reply (C67), the encoding (C21, C26), the servers (C29, C30); records stay plain by the logic of Lemmas/Small |
| C90–C92 | lookups as step machines (`Model/Tasks`), any number of threads, one shared cache, arbitrary schedules | refinement: the steps are the lookup (`lookupTask_is`); each thread's history is that of one lookup in some environment whose other threads respect the invariant (`Lemmas/Threads`); that a step keeps the invariant follows from the theorem about whole lookups, by letting the other threads preserve every violation |
| C93, C94 | the handlers as step machines, any number of UDP and TCP jobs, one shared cache, arbitrary schedules | the same refinement as C90–C92, with C68 and C89 as the theorems about single requests; that the cache only has plain, received records is shown first, with its own invariant |
| C95 | sequences of lookups from an empty cache, one after the other | a triple logic over the world of one lookup: every cache entry has a received source whose TTL ends no earlier than the entry (`Backed`); then induction over the lookups |
| C96 | networks of name servers of this program (`Network`, Spec/Network.lean) with loaded zones, reached over a lossy network | every reply of such a server, read off C47/C48 and carried over the wire (C21, C26), is one that `NameSpace.Helps`; so the zones are a name space in order (`WellRun`), and C88 and C92 apply |
| C97 | the loader run on two sets of files | a relational logic over the functions of the parser (`Sim`: which tokens the loader can tell apart, blanks within entries aside), instantiated with the bisimulations of C40; closed under composition and converse |
| C98 | any number of threads that share the cache (`Task`, `System`), all schedules | a rely-guarantee predicate on the steps of a thread (`Careful`: whatever it finds and receives, it saves only what may be kept), shown for the lookup function by function; then induction over the events |
| C99 | the same system of threads, for lookups and for served requests | a rely-guarantee predicate on the steps of a thread (`Asking`: whatever it finds in the cache and receives, it saves only records learnt, and sends only queries that may be sent), shown function by function; then induction over the events |
| C100 | `parse_zone_files` with its checks, on the files of C41 | the checks equal a condition on the stored records (both directions); C41 gives the stored records; a small specification (`FitTogether`) on the lists of records |
| C101 | files (C41), loader and handler | the reply as a function of lists of records (`expectedReply`), equated with the handler's reply from the store |
| C102 | as C101, two file sets | congruence of that function |
| C103 | both encoders, both readers and repliers, both handlers | the two encoders write the same items in the same order; octets of the header by bit arithmetic; no hypothesis on zones or cache |
| C104 | threads, requests and encoders | C99, and names decoded from the wire are within the limits; violated for the root and for 256 octets |
| C105 | threads that serve requests | careful tasks (C98), through the handler and both servers |
| C106 | threads that serve requests | C93 reduces it to one thread; C67, C59 and C66 there |
| C107 | threads that serve requests | accounts: every event brings or costs credits, and no thread gets into debt; three tariffs; violated by servers without addresses |
| C108 | two histories of the service | tasks that are alike up to their results; lock-step simulation of two systems |
| C109 | threads that serve requests | tasks that end without a query while the cache answers; violated by requests without RD |
| C110 | one query and its response | composition of the retries with the interpretation of a response; violated by a denial for another name |
| C111 | names on the wire | uniqueness of the meaning of a compressed name, and of the dotted form; violated by labels with dots |
| C112 | both handlers | case analysis; violated by a fixed point: the FORMERR reply to a FORMERR reply is the same message |
| C113 | the handler of the name server, two requests | relation between two runs, by cases |
| C114 | the loader run with two iteration orders | relation between the stores of the two runs (same records for each owner and type), by induction on the fuel; then no request can tell them apart |
| C115 | both handlers, encoders | bit 22 of request, reply and datagram; uses C30, C103; violated by requests with TC |
| C116 | the pool as a transition system | invariant: deaths = panicked jobs, and past the sending of stop messages there is one for every thread left |
| C117 | zone loader; grammar of C41 with the last stated owner as a further state | reduces to C41 where owner and origin agree; violated otherwise |
| C118 | server, pool, handler, loader composed | C72, C73, C74 with C101 and C93 |
| C119 | resolver handler over the facts of C82 | from C82_facts_partial: a lookup that returns says a fact; none is left for such a name |
| C120 | Model/Daemon: both servers, pools, workers and cache as one transition system | simulation: the work of the program is that of one thread per request (C93, C105, C106), each server is one of Model/Server (C67-C74); conservation of jobs by invariant |
| C121 | Model/Daemon in a name space in order | C120 with C94 |
| C122 | Model/Daemon | case analysis of the listening thread and the pool (the counting invariant of C32 shows that a worker that is joined finds a stop message); a measure that every step decreases |
| C123 | Nameserver, ZoneParser | a configuration in the other order says the same of the files (C101, C100); lists with at most one matching element |
| C124 | Tokens, ZoneParser, Nameserver | the quoted string in the grammar of C41; then C100 and C101; for \DDD evaluation by the kernel, for every bound on the recursion |
| C125 | Message, Net, Nameserver, Resolver | the question section is read, copied by every handler, and written before all else; cutting a message to 512 octets never cuts the questions, which had fitted into the request; for the root evaluation by the kernel |

## Trusted base

* Lean 4.33.0's kernel. No axioms of our own; every theorem depends on at most `propext`, `Quot.sound` and
  `Classical.choice` (printed by vcheck). No compiled evaluation: concrete examples are checked with `decide`,
  `decide +kernel`, or the tactic `kernel_rfl` (`Lemmas/KernelRfl`, which only builds the term `rfl` and lets the kernel check it).
* The faithfulness of the model to the Rust source, argued by the citation comment of every definition; it was read
  against the source twice. `Spec/*` must be read to know what the statements mean. As a check of the model, the code's
  own unit tests (all in buffer.rs) and its shipped query packet are run against it in `Props/UnitTests.lean`; its shipped
  response packet and its shipped zone files (`assets/`) decode and load in the model with `#eval` as they should.
* Facts about std assumed by the model: `Vec`, `String`, `HashMap`, `mpsc`, `Mutex` and `Instant` behave as documented;
  `send` fails iff the receiver is gone; a panic in a thread unwinds it, a panic while unwinding aborts the process;
  `set_read_timeout`/`set_write_timeout` reject the zero duration; `str::split_whitespace`/`char::is_whitespace` use
  Unicode White_Space (listed in `Model/Tokens.lean`).

### What is modelled, file by file

| source | model | not modelled |
|--------|-------|--------------|
| shared/buffer/buffer.rs | `Model/Buffer`: all of it | `Debug`/`Display` output |
| shared/dns/name.rs, utils.rs | `Model/Name`, `RString`: all of it | the `debug_assert` in `to_bytes`; serde's `Deserialize` of `Name`, which does not validate (no configuration struct contains a `Name`) |
| shared/dns/class.rs, types.rs, header.rs, questions.rs, records.rs, message.rs, errors.rs | `Model/Codes`, `Header`, `Record`, `Message`: all codecs, both build profiles | texts of error messages; the memory a diverging WKS decoder eats in release builds (it is `diverge`) |
| shared/net/udp_server.rs, tcp_server.rs | `Model/Net`: one request and reply over arbitrary sockets; `Model/Server`: the accept loops with pool, any arrivals and any handler | real sockets; time (a time-out is an I/O error that may come at any point); the output of a job is one step |
| shared/net/setup.rs | `Model/Server`: main thread, two servers, channel, stop flag, wake-ups | the four seconds are "the second message does not come" |
| shared/thread_pool.rs | `Model/Pool`: workers, queue, drop, panics | thread creation failing (huge thread counts) |
| nameserver/zones/tokens.rs, utils.rs, parser*.rs, errors.rs | `Model/Tokens`, `Zone`, `ZoneParser`: all of it, files as functions from paths to lines | stack depth: `next` recurses at `(`, `)`, `;`, and `$INCLUDE` cycles recurse for ever (`diverge` in the model, a stack overflow in the program) |
| nameserver/handler.rs | `Model/Nameserver`: all of it | log output |
| bin/resolver.rs, with the rows on shared/net, shared/thread_pool and resolver/* together | `Model/Daemon`: both servers, both pools, every worker step by step, the shared cache and its cleaner, in any interleaving | as in these rows; what ends the process does not stop the other threads (more executions than in reality) |
| nameserver/conf.rs, resolver/conf.rs, bin/*.rs | `Model/Conf`: `validate`, the translation to parameters, what start-up does with them | JSON decoding (serde), `IpAddr::from_str` (parameter `isIp`), command line |
| resolver/back_end/cache.rs | `Model/Cache`: all operations; concurrent histories in mutex order; other threads may act before every access of a lookup | `thread::sleep` of the cleaning thread (it may clean at any time) |
| resolver/back_end/recursive.rs, requests.rs, utils.rs, errors.rs | `Model/Resolver`: all of it; the world (datagrams or I/O errors, ids, clock readings, other threads' cache operations) is an arbitrary environment | `max_cleaned` is unused in the code too; stack depth of nested lookups |
| resolver/back_end/trace.rs | `Model/Trace`: events, nesting, silent/verbose, the depth arithmetic of the display | the text and the colours of a line |
| resolver/handler.rs | `Model/Resolver`, `Model/Trace`: all of it, with and without logging | log output |
| logs.rs, traits.rs, mod.rs files | – | logger set-up; no logic of their own |

Allocation failure and stack overflow are not modelled anywhere. `usize` is unbounded.

### Environment of lookups

`Env`/`World` give, as functions of the history, every datagram a socket returns (or an I/O error), every random id, every
clock reading and every cache operation other threads do before each of our accesses. Theorems either hold for all of them
or name the rely condition (discharged by C90–C94 for threads that run lookups or serve requests): `Friendly` says that other threads only do to the cache what lookups of this program do
(`friendly_of_calls` proves that lookups indeed satisfy it).

### Where the code does not have the property

The full statement is a `Cnn_statement : Prop`, `Cnn_violated` refutes it with a concrete witness, and `Cnn_…_partial`
proves what is true, as close to an exact characterisation as we could get. See MANIFEST.json for the list.
