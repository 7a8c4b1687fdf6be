# Formal model of wmproxy — design

The model is written in Lean 4 (4.33.0) under `lean/Verif`. `lake build` in `/verif/lean` checks everything.

## Trusted base

* Lean's kernel. No axioms of our own; every theorem depends at most on
  `propext`, `Classical.choice`, `Quot.sound` (see the end of this file and `lean/Verif/Audit.lean`).
* The transcription: each definition cites the file and lines of `/repo` it models.
  Simplifications are stated in the comment of the definition or of its module.
* External code (crates `webparse`, `wenmeng`, `tokio`, `regex`, `base64`, `chrono`, the standard library, the OS) is not
  verified. Where its behaviour matters it appears as a parameter of the model, as an event chosen by the environment, or as a
  definition marked as external. The assumptions are listed below.

## Conventions

* `&mut self` becomes a returned new state. `Result`/`Option` stay data. A panic path is an explicit `panic` outcome.
* Machine integers are `Nat` with explicit `% 2^k` where the code truncates or wraps, and explicit
  overflow outcomes where the code would panic or wrap (parameter `checked`: the build has overflow checks).
* Bytes are `UInt8`; byte buffers are `List UInt8`. Texts are `List Char`.
* Tasks are state machines `step : State → Event → State`. The environment (scheduler, network,
  other tasks) chooses the events, so a theorem over all event lists is a theorem over all schedules.
* Property theorems are in `Verif/Props/*.lean` and start with the number of the property; models in `Verif/Model/*.lean`;
  specifications that do not use model helpers in `Verif/Spec/*.lean` (or at the head of the property file when short).
* When the code violates a property, the negation is proved (suffix `_fails`), for all inputs where possible and with a
  concrete witness otherwise; the part that does hold has suffix `_partial`; the finding is listed under "Disagreements".
* In MANIFEST.json `proved` means that the whole statement of the property is proved; `partial` that only the `_partial`
  theorems hold, because the code violates the rest or a condition is needed.

## What is modelled

| model | source | contents |
|-------|--------|----------|
| `Basic`, `Types`, `Text` | Rust standard library, `webparse` buffers | bytes, big-endian numbers, UTF-8, texts, addresses |
| `Prot`, `Reader` | src/prot/*.rs, src/helper.rs (decode) | messages of the tunnel protocol, encoding, decoding, the decode loop |
| `Ids` | src/streams/center_server.rs, center_client.rs | allocation of stream ids |
| `Tunnel` | src/streams/center_server.rs, center_client.rs | both ends of a tunnel connection, any order of their branches |
| `Select` | same | the `select!` branch by branch with its fixed polling order, as a refinement of `Tunnel` |
| `Life` | src/streams/center_client.rs | the client over several connections |
| `World` | src/trans/tcp.rs, src/streams/center_server.rs, center_client.rs, trans_stream.rs | `Tunnel` and `Relay` composed: visitors, server, network, client, local services |
| `TransHttp` | src/trans/http.rs | HTTP visitors of the tunnel |
| `Listen` | src/reverse/http.rs, src/reverse/stream.rs, src/wmcore.rs, src/option.rs | listeners, choice of server blocks, TLS settings |
| `Core` | src/wmcore.rs, src/streams/center_server.rs | choice of the client for a visitor, the main task's loop |
| `Target` | src/reverse/location.rs (proxying), server.rs (`get_addr_domain`), reverse_helper.rs, stream.rs (`process`), ws.rs | which group, server, address and TLS name; WebSocket sessions as two channels of ten; URL parsing, name resolution and frames are external |
| `Cli` | src/arg.rs (`parse_env`), src/main.rs | options to configuration, exit statuses, the `--forever` loop; argument parsing, YAML/TOML, files and processes are external |
| `Chain` | src/wmcore.rs:118-131 with src/streams/*.rs | users of a client served by the server's proxy: `Tunnel`, `Relay` and `Virtual` connected; what the proxy does with the bytes is free |
| `Texts` | src/reverse/{limit_req,try_paths,matcher}.rs, src/config/log.rs | reading and printing of further textual settings; tables of method, scheme and status names are parameters |
| `Access` | src/helper.rs:170-222, 362-393, src/reverse/http.rs:116-125, 498-503 | names, files and levels of logs; where a record goes (crate `log4rs`, trusted as described); the lines of a request. Not: the text of a line (C58, C91), names with `::` |
| `Rewrite` | src/helper.rs:41-43, 230-319, 497-510, src/plugins/static_response.rs | entries of try lists, pattern and expression caches, fixed answers. Not: regular expressions themselves |
| `Answer` | src/reverse/http.rs:428-480, src/reverse/common.rs:173-233 | final answers and timeouts of connections. Not: what the library does with timeouts |
| `Builder` | src/option.rs:38-195, 317-349, src/helper.rs:89-147 | settings by calls; opening addresses |
| `Orphan` | src/streams/center_server.rs:50-62, 117-122, 252-258, src/streams/center_client.rs:54-73, 157-162, 371-386 | who can open streams through a tunnel end, and the loop once nobody can |
| `Start` | src/wmcore.rs:209-249, src/option.rs:568-681 | what a service opens and connects to when it starts |
| `Listing` | src/plugins/file_server.rs:238-251, 279-285, 582-660, src/plugins/mod.rs:19-29 | the page for a directory, the answer for what is not served |
| `Reload` | src/wmcore.rs:260-345, src/control/server.rs:86-94, src/helper.rs:101-105 | connections waiting at listeners, being served, lost |
| `Desk` | src/control/server.rs:99-147, 178-210 | requests at the control port and the lock |
| `Ring` | src/proxy/http.rs:226, src/proxy/socks5.rs:303 with src/streams/center_server.rs | the server end, the copying task of one stream and a target that echoes with bounded memory |
| `Relay` | src/streams/trans_stream.rs | copying between a local connection and a tunnelled stream |
| `Virtual` | src/streams/virtual_stream.rs | a tunnelled stream as a byte stream |
| `ConfigNum`, `ConfigText` | src/config/*.rs, src/flag.rs | sizes, durations, rates, address lists, headers, listen ranges, flags, quoting |
| `Helper` | src/helper.rs | wildcards, header rewriting, pid file |
| `Limit` | src/data/limit_req_data.rs, src/reverse/limit_req.rs | request limits |
| `Health`, `Active`, `HealthList` | src/check/*.rs, src/reverse/upstream.rs, src/option.rs | health records, active checks, choice of a server |
| `Reverse`, `Inherit` | src/reverse/{http,location,matcher,common,server,ws}.rs | routing, access rules, try lists, inherited settings |
| `Files` | src/plugins/file_server.rs | the file server |
| `Socks`, `HttpProxy` | src/proxy/*.rs | SOCKS5 and HTTP proxy |
| `Udp` | src/reverse/stream.rs | UDP forwarding |
| `Control` | src/control/server.rs, src/wmcore.rs | reload, stop, end of the process |
| `Log` | src/log/pattern/*.rs, src/helper.rs | log patterns, padding writers |

Not modelled: TLS (handshakes, certificates), HTTP message parsing and serialisation (crates `wenmeng`, `webparse`),
command line and configuration-file syntax (bpaf, serde), the log writers' files, the operating system's sockets beyond what
they deliver, memory limits, and real time (timeouts are events or numbers).

## Assumptions about external code

* `tokio`: bounded channels are FIFO, deliver each message at most once, and report closed when the other side is dropped;
  `select!` with `biased` polls in order; a task runs until it waits. A panic ends the task only.
* TCP: the bytes read are a prefix of the bytes written, in order, cut arbitrarily. UDP: no assumption.
* `webparse`'s buffers: big-endian integers; reading beyond the end panics. Header collections: the laws of `Helper.Headers`.
* Rust standard library: printing and parsing of single IP addresses are inverse (`IpText`); `SocketAddr` parsing is a
  parameter (`NetEnv`); paths as in `Files.comps`/`joinPath`; `String::from_utf8_lossy` as in `lossy`;
  `char` classes as in `Log.Classes`.
* `regex`: a parameter. `base64`: as in `HttpProxy.b64Decode`. `chrono`: parameters (`CondEnv.lastMod`, `Log.Rec.time`).
* HashMap/HashSet: finite maps and sets; where the order of iteration matters it is arbitrary.
* Locks are not poisoned (a poisoned lock needs a panic while it is held).
* The clock is monotonic.

## Plan per property

| id | modelled | how it is proved |
|----|----------|------------------|
| C01 | all message encoders/parsers, header, `decode_frame` | round-trip law, induction over lists of mappings/headers |
| C02 | `decode_frame` loop with an accumulating buffer | induction over chunks, from C01 and prefix-stability of `decode_frame` |
| C03 | `decode_frame` | case analysis, arithmetic |
| C04 | header encode/parse | arithmetic on `%`/`/` |
| C05, C06 | `calc_next_id` as iterated step | induction, modular arithmetic; C06 false after 2^23 allocations: witness |
| C07 | encoders with error outcome | case analysis; false for close/token: witness |
| C08 | `decode_frame` on malformed bodies | true for data and for well-formed messages; false in general: witness |
| C09 | panics as outcomes | false: witnesses; partial: which buffers are safe |
| C10, C11 | `CenterServer::inner_serve` as step machine | invariant over all event lists |
| C12, C13, C15, C18 | same machine plus `CenterClient::inner_serve` | invariants/refinement to per-id filters |
| C14 | client machine with bounded queues | false: witness; partial while queue not full |
| C16, C17 | client machine | invariant; case analysis |
| C19–C21 | `TransStream::inner_copy_wait`/`copy_wait` as nondeterministic step machine | prefix invariants; C21 false: witness |
| C22, C23 | `VirtualStream::poll_*` as step machine | prefix invariant; end-of-input and back-pressure clauses false: witnesses |
| C24, C25 | `ConfigSize` Display/FromStr on texts | round-trip, digit-string arithmetic |
| C26, C27 | `ConfigDuration` | partial (sub-second part below 4295 ms), witness |
| C28, C29 | `IpGate`, `IpSets` | IPv4 full except /0; IPv6 prefix ignored: witness |
| C30 | `ConfigHeader` | partial, witnesses |
| C31 | `WrapVecAddr` | partial; range panics on single-address end: witness |
| C32 | `Flag` | finite sets by cases, lists by induction |
| C33, C34 | `Helper::is_match` | greedy-matching correctness; C34 false: witness |
| C35 | tokenizer of `split_by_whitespace` | induction over words |
| C36 | `rewrite_header` on a header list | induction; replace false: witness |
| C37 | pid file operations | step machine over several processes |
| C38–C40 | `LimitReqData` | invariants over histories |
| C41, C42 | `HealthCheck` | refinement to a history specification |
| C43, C44 | `UpstreamConfig::get_server_addr` | induction; counting draws; off-by-one witness |
| C45–C47 | location matching and `deal_match_location` | recursion with a termination measure; induction |
| C48 | `copy_from_parent` etc. | per-field laws; witnesses for non-inherited fields |
| C49, C50 | file server path and range computation | witnesses for traversal/suffix ranges; partials |
| C51, C52 | socks5 reader over chunked input | round-trip; case analysis on all inputs |
| C53, C54 | http proxy `operate`, `deal_proxy` | state machine per connection; witness for connect-before-auth |
| C55 | `StreamUdp` queues | FIFO refinement |
| C56 | control server + service life cycle | invariant; failed-reload witness |
| C57, C58 | log writers and pattern parser | stream-transformer semantics; induction |
| C59 | `get_health_check` | induction |
| C60 | `VirtualStream::poll_write` | false: every write to a dead tunnel waits (universal) |
| C61 | size, duration and rate texts | which texts are rejected, exactly; false parts universal |
| C62 | `ConfigRate` | equation with the size and duration readers |
| C63 | `Flag` bits | false for UDP; finite case analysis over all sets |
| C64 | limit zones and their registration | step machine over reloads; false: settings of a zone never change |
| C65 | `deal_match_location` with limits | trace of the limit's questions; false through try lists: witness |
| C66 | kept upstream connections and header rules | per request; false for every request after the first |
| C67 | `ws.rs` `on_open` | false: no access rule is consulted (universal) |
| C68 | kept connection closed by the upstream | false: the next request gets 404 (universal) |
| C69 | cache keys of kept connections | invariant over the requests of a connection; witness for equal names |
| C70, C97, C98 | `FileServer::deal_request` | case analysis over an arbitrary file system; containment of texts |
| C71–C73 | `try_cache`, `after_file_response`, `calc_etag` | case analysis; injectivity of hexadecimal digits |
| C74–C76 | rate limit, media types, panics of the file server | case analysis; false parts universal |
| C77–C80 | SOCKS5 over segmented input, UDP association | reader laws independent of segmentation; induction over datagrams |
| C81–C83 | HTTP proxy per connection | state machine; exact conditions; false parts universal |
| C84 | flag texts and numbers | induction over words; witnesses |
| C85–C88 | UDP forwarding | invariants over all event lists; false parts universal over later histories |
| C89, C90, C99, C100 | control server and services | invariants over all event lists; progress theorems |
| C91, C101 | patterns from text to output | grammar of patterns as a relation; induction over patterns |
| C92, C94 | `select!` in its polling order | refinement of `Tunnel`; invariants |
| C93 | bounded queues | invariant |
| C95 | client over several connections | induction over connections |
| C96 | try list | induction over the list |
| C102, C103 | active health checks | invariant over histories: refinement to a list of questions and answers |
| C104, C105 | visitors, both ends, network and local services composed | invariants over all interleavings, composed from those of the parts (C12-C15, C19) |
| C106 | HTTP visitors' connections (`HttpOper`) | induction over the requests of a connection; false parts universal |
| C107-C111 | listeners of HTTP and stream blocks, choice of the block for a connection (`Listen`) | induction over the blocks; false parts universal |
| C112 | lock held by a forwarded connection | invariant over all schedules |
| C113 | reading of certificates and keys, what TLS is used (`Listen`) | exact characterisation for all files |
| C114 | choice of the client for a visitor (`Core`) | invariant of the tunnel server (no mappings without login); false parts universal |
| C115 | the main task's loop (`Core`) | invariant over all schedules |
| C116 | the end of a stream through the composed system (`World`) | invariants linking relays' ends, submitted closes and registrations; two counterexamples |
| C117 | choice of group and server, URL and connection of a proxied request (`Target`, with `Inherit` and `Health`) | flattening of nested blocks against a separate meaning of names; C43 for the server; four counterexamples |
| C118 | address and mode of a stream block, UDP included (`Target`) | as C117; three counterexamples |
| C119 | opening of a WebSocket session (`Target`) | as C117; a session without upstream drops everything |
| C120 | the two channels of a WebSocket session (`Target`) | invariant: read = handed on ++ queued (++ lost after the end) |
| C121 | from options to configuration (`Cli`) | case analysis over the subcommands; `run` against any other options |
| C122 | `check` and `run` on a file (`Cli`); reading and parsing are environment | equivalence with a separate meaning of readable files; counterexamples for every world |
| C123 | `reverse-proxy` through listeners (`Listen`), inheritance, matching (`Reverse`) and choice of server (`Target`, `Health`) | composition of C107, C33, C43, C117 for the configuration made |
| C124 | `ws-proxy` (`Cli`, `Target`) | as C123, with the mode as free text |
| C125 | `file-server` (`Cli`) | the loaded configuration for all options |
| C126 | exit status and the `--forever` loop (`Cli`) | induction over the list of endings |
| C127 | users, both ends, network and proxy tasks interleaved (`Chain`) | invariants over all runs, composed from C12, C13, C14, C19, C22, C23 |
| C128 | the same | which messages an end can ever accept under a user's id |
| C131 | `from_str` and `fmt` of `LimitReq` (`Texts`) | induction over the words; round trip through C06-style number texts |
| C132 | the same of `LimitReqZone` | words composed with C24, C26, C62 |
| C133 | the same of `TryPathsConfig` | composed with C35; printed texts by induction |
| C134 | the same of `ConfigLog`, with `as_error` | case analysis of the split words |
| C135 | the same of `MatchMethod` and `MatchScheme`, over any name table | induction over the set |
| C129 | the lines `log_acess` writes in the course of the handling (`Access` over `Reverse`) | the events of all runs, by C45, C46 and induction over try lists |
| C130 | `try_init_log`, `get_log_names`, `after_load_option` over `Inherit` and `Cli`; what `log4rs` does with them | induction over the blocks |
| C136 | `format_req_may_regex` with its caches (`Rewrite`); regular expressions are a parameter | an invariant of the caches over all histories; the words by C35 |
| C137 | `StaticResponse::deal_request` over `Rewrite` and `Log` | from C136's invariant and C91 |
| C138 | `build_client_timeout`, `build_proxy_timeout`, `process` (`Answer` over `Listen` and `Inherit`) | by cases on what is given, and over all lists of blocks |
| C139 | `operate` (`Answer` over `Reverse`) | from C47 |
| C140 | `Builder` as a fold over calls | induction over the calls |
| C141 | `bind`, `bind_upd` over a parameter for the operating system | induction over the addresses |
| C142 | `inner_serve` of both ends (`Tunnel`) | an invariant of the map of streams over all histories; the unbounded case by induction over the number of streams |
| C143 | `inner_serve` of both ends (`Tunnel`), the decoder (`Prot`) | an invariant that no complete message is left over; from every state the growth by induction |
| C144 | the `select!` of both ends with the channel of new streams closed (`Orphan` over `Select`) | a measure that decreases with each turn until the loop spins, and an invariant of the spinning loop |
| C145 | `ready_serve`, `bind`, `bind_map` (`Start` over `Listen`) | by cases along the start, and from C107 and C111 |
| C146 | the page for a directory (`Listing` over `Files`) | by induction on the entries; sizes by arithmetic |
| C147 | its links, and the way of a request to a path (`Listing`, `Files`) | the components of the path a link leads to are those of the entry's path |
| C148 | the text of the page (`Listing`) | the number of tags is a sum over the lines |
| C149 | `ret_error_msg` (`Listing`) | by cases |
| C150 | the services of `Control` with the connections waiting at their listeners (`Reload`) | by induction over the events; the failing cases from every state with a running service |
| C151 | the lock of the control server and the requests (`Desk` over `Control`) | by induction on the line of requests; an invariant for the blocked state |
| C152 | the message to the previous service (`Control.room`) | an invariant for the services behind one that hangs |
| C153 | the loops of both tunnel ends (`Tunnel`); the server end with the task of one stream and an echoing target (`Ring`) | from the states that wait for a full queue no event of the loop moves; the ring by an explicit schedule and an invariant of the stopped state |
| C154 | the relay loop (`Relay`) | from every running state any sequence of reads is accepted; the pieces sent and kept by an invariant |
| C155 | the formatter `X` of log patterns (`Log`) | through the parser of patterns, for all keys, defaults and formats |
| C156 | parsing of header rules (`ConfigText`) | by cases on the words, with the splitting of C35 |
| C157 | the tunnel end to end (`World`) | a strategy that passes on what is under way, its progress by induction on what is left, from every reachable state |
| C158 | the tunnel end to end (`World`) | the strategy of C157 in the other direction; the client reads one byte at a time and empties its channels before each, so that none of them overflows |
| C159 | a UDP association with its three futures (`Assoc`) | invariant relating what was forwarded to a prefix of what was accepted |
| C160 | the same | the socket's peer is fixed by the first datagram read: an invariant over all continuations refutes the claim |
| C161 | the same | every state before the client's first datagram; every datagram above the limit |
| C162 | all header lines of the answers of the file server (`FileLines`) | values of each line after a sequence of insertions, over all ways to an answer |
| C163 | the same, two requests | the line of the first answer is the ETag; C71 and C73 for the second |
| C164 | the same | case analysis; refuted for all requests with compression switched off |
| C165 | the same, with the table of types and the ending of a path | the ending of `dir/stem.ext` is `ext`, for all texts |
| C166 | the same | comparison of the two answers line by line |
| C167 | the answers of the file server with their lines (`FileLines`) | case analysis over all ways to an answer |
| C168 | the same | values of the two lines over all ways to an answer; refuted for all robots texts and all HEAD requests |
| C169 | both ends with all visitors and local connections (`World`) | construction of the continuation: drain the client, unblock and drain the server, let the visitor take its channel; end by C116 |
| C170 | the same | construction of the continuation: unblock and drain the server, let the client take byte by byte with room in the channel; end by C116. Refuted by two histories from which nothing is under way any more |
| C171 | the request as it changes while the entries of a try list are asked (`Reverse.St.now`); what a proxy leaves in it is `Env.left` | invariant over all entries: the request is the client's until a proxy was asked; refuted universally for two entries |
| C172 | the same | the same invariant; refuted universally for locations bound to the client's host |
| C173 | parser and printer of patterns (`Log`) | specification of patterns with mistakes; induction over the pattern, one piece at a time; refuted for every unclosed name |
| C174 | the limit zones with machine arithmetic and the lock around them (`LimitOver`) | refinement of the model without number limits for settings that fit; refuted universally for the others |
| C175 | the record a format is applied to (`LogFields`) | table of the parts of a request against what the format prints; refuted for every other field |
| C176 | numbers as handed on by the readers of TOML and YAML (`Scalars`); which visitor method these crates call is trusted | all numbers; refuted for all YAML numbers and all negative ones |
| C177 | the composed tunnel (`World`): visitors, both ends, channels and local connections | from any reachable state: unblock the server's pending delivery, drain the queue of new streams, move all frames to the client, let it connect |
| C178 | the address told and the address bound (`Assoc.told`, `Assoc.bound`) | bytes of the reply read as numbers, for all addresses and ports; refuted for all IPv6 addresses |
| C179 | the association (`Assoc`), with a system that sends to one family only | one step from any state, then nothing changes any more; refuted for all IPv6 targets |
| C180 | endless schedules of the whole system (`World`), `after cfg σ t` | for each stage of the way a list that only grows and grows again and again while it is shorter than what is to come through (`reaches`); stages composed |
| C181 | `Model/Redial.lean`: the task of `CenterClient::serve` with the passing of milliseconds, around the model of one connection | invariant tying the record (what happened last, how many milliseconds ago) to the place in the loop; for the messages of a well-behaved server the decode loop neither panics nor blocks |
| C182 | `Model/Pass.lean`: whole requests through the proxy of a location, over new and kept connections | induction over the requests of a connection; refuted for all rules and for all sequences of answered requests |
| C183 | `Model/Pass.lean`: whole requests through the HTTP proxy of a mapping, around `HttpProxy.operate` | induction over the requests of a connection |
| C184 | `Model/Turns.lean`: the `select!` of the main task with its single listeners and groups of listeners, items being connections or errors of accept | endless schedules, growing prefixes (`reaches`); refuted for all schedules with busy earlier listeners, and for all continuations after an error |
| C185 | the model of C28 | for all entries and addresses, bit by bit |
| C186 | the model of C36 | induction over the rules |
| C187 | the model of C38 | induction over the history, for each client |
| C188 | the model of C42 | induction over the list of addresses |
| C189 | the model of C45 | cases and induction over blocks, locations and try lists |
| C190 | the model of C46 | invariant of the trace through all try lists |
| C191 | the model of C52 | induction over the bytes read, for all splits |
| C192 | the model of C54 | cases over the pieces |
| C193 | the model of C55 | invariants over all histories |
| C194 | the model of C107 | induction over the blocks and addresses |
| C195 | the model of C113 | case analysis, both directions |
| C196 | the model of C117 | for all groups, records and draws |
| C197 | the model of C138 | case analysis |
| C198 | the model of C139 | totality of the loop over try lists; cases |
| C199 | the model of C140 | induction over the calls |
| C200 | the model of C136 | invariant of the caches over all histories |
| C201 | the model of C104 and C180 | invariants of the composed model; endless fair schedules |
| C202 | the model of C116 | invariants of the composed model |
| C203 | the model of C22 | invariants over all runs |
| C204 | the model of C184 and C115 | invariants over all runs |
| C205 | the model of C181 (that the server is contacted is not part of it, see `Model/Contact.lean` for C181) | invariants over all runs |
| C206 | the model of C14 and C153 | invariants over all runs |
| C207 | the model of C129 and C130 | invariant of the trace through all try lists |
| C208 | `Model/Pass.lean`, the model of C182: one client connection, its requests, the upstream connections kept for it | induction over the run |
| C209 | `Model/PidFile.lean`: all processes of a machine, their numbers, the pid file, the commands `stop` | invariants over all histories; refuted after every history in which the process named by the file ends by `stop` or by a crash |
| C210 | the tunnel ends of C10-C18, with the event of a failing write | invariant that a crash has one of two causes; the failures are proved after every history |
| C211 | the request handling of C45-C47 with the tables of C38-C40 as its limits | refuted for every location with a limit, by induction over the refused clients |
| C212 | the request handling of C45-C47, with the kept connections | invariant over every sequence of requests |
| C213 | requests to a group as events over the records of C41-C43, any number under way at a time | invariant over every sequence of events: lost requests are bounded by recorded failures and those under way |
| C214 | `connect` of C42 over the records of C41 | C41's account of when an address is down, for a target that answers |
| C215 | the records of C41 | every address ever mentioned has a record after every history |
| C216 | the model of C55 | invariant over all runs for the channels; C55's count of datagrams and an induction over replies for the lists without bound |
| C217 | the answers for files of C50 and C71 | by cases over the headers; the answer is that of a request without If-Range or without a range |
| C218 | the codec of C01 | the bytes are written down without the encoder; equal to the encoder's by cases over messages, with UTF-8 as Lean defines it |
| C219 | the composed tunnel of C127 | a schedule is built: the client empties its queues, the server is unblocked by tasks that take or go (each turn shortens what is left to decode), and the task reads until nothing is left; C127 then gives equality |
| C220 | the composed tunnel of C127 | invariant: unannounced users are at most the queued ones, and at most ten are queued |
| C221 | the composed tunnel of C127 | a schedule is built: the server is unblocked and empties its queue, the client reads byte by byte while the user's task takes what arrives, so no channel is full; invariant: a working user's channel has its receiver; C127 then gives equality |


## Disagreements

Where the code does not do what the property says. Each line is a theorem about the model of the code as it is; its docstring
says what goes wrong. (Generated from the sources.)

* C06 `Wm.Tunnel.C06_distinct_on_wire_fails`: fails: the id allocated after 2^23 others is a different id, but the peer cannot tell it from the first one: a message for one stream reaches the other.
* C06 `Wm.Tunnel.C06_reserved_id_fails`: fails also with the reserved id: after 2^23 - 1 allocations a server hands out an id which the peer reads as 0 (for server id 0), the id of messages for the connection itself.
* C07 `Wm.Prot.C07_close_fails`: is false for close messages: every over-long reason leaves 12 stray header bytes in the outgoing stream.
* C07 `Wm.Prot.C07_token_fails`: is false for login tokens: an over-long password leaves the header and the user name in the stream.
* C08 `Wm.Prot.C08_leak_fails`: fails for malformed messages: whatever the stream, a close message that announces an empty body takes its reason from the bytes that follow, which stay in the buffer: with every text behind it, this is the reason it is read with.
* C09 `Wm.Prot.C09_no_panic_fails`: fails: every complete message of a kind this version does not know crashes the decoding task, whatever else was read; and so does every open request without a body while nothing else has been read.
* C14 `Wm.Tunnel.C14_client_lossless_fails`: fails: whatever happened before, when ten messages wait for the task of a stream and another data message for the stream arrives, this message never reaches the task: in every continuation, what the task receives is a beginning of the messages before it followed by some of those after it. The stream, the connection and the client go on.
* C17 `Wm.Tunnel.C17_no_address_fails`: fails for a mapping without local address: whatever happened before, a request to open a stream for which the last matching mapping has no local address (and is not for the proxy) is swallowed: nothing is submitted for the peer and no service is started; the client goes on.
* C17 `Wm.Tunnel.C17_stuck_fails`: fails when the client's own outgoing queue is full: whatever happened before, when a hundred submitted messages wait and a request to open a stream without a matching mapping arrives, the answer is sent by the only task that could empty the queue. The client never does anything again: in every continuation nothing is answered, read, looked at or written.
* C18 `Wm.Tunnel.C18_blocked_fails`: fails at a server that waits for a slow stream: a message for one stream has been decoded and could not be handed over, because ten wait for the stream's task. Whatever happens then, until that task takes a message or ends, and however often the loss of the connection is signalled: the server does not notice it, goes on, and no stream is told.
* C21 `Wm.Relay.C21_close_loses_output_fails`: fails downwards, in every case: when the close arrives, the bytes that were received and not yet written are never written, whatever the local side does afterwards.
* C21 `Wm.Relay.C21_half_close_loses_input_fails`: fails upwards, in every case: when the local side half-closes, the bytes that were read and not yet sent are never sent, whatever the tunnel does afterwards.
* C22 `Wm.Virtual.C22_eof_before_data_fails`: fails for the end of input: whatever data and then a close arrive, a reader with a smaller buffer gets its first bytes and then the end of input; the rest is lost.
* C22 `Wm.Virtual.C22_rest_lost_fails`: fails for the end of input, whenever the last message before the end is longer than the reader's buffer: the reader gets as much as fits, then the end; the rest is lost.
* C23 `Wm.Virtual.C23_retry_duplicates_fails`: fails under back-pressure, in every history: what is sent (and still held back) is what was offered counted once per attempt, so a write that has to wait `k` times and is then accepted is sent `k + 1` times.
* C25 `Wm.Config.C25_overflow_fails`: fails when the product does not fit: whenever digits and unit denote a number of 2^64 or more (the digits themselves fitting), the text is never rejected: it is reduced modulo 2^64, or the program panics if built with overflow checks.
* C26 `Wm.Config.C26_duration_roundtrip_fails`: fails: every duration of more than 4294 ms that is not in whole seconds is printed in milliseconds and read back as a duration of less than 4.295 s, its nanoseconds counted modulo 2^32. (As long as they fit 64 bits.)
* C26 `Wm.Config.C26_print_fails`: fails (printing): a duration with a part of a second that does not fit 64 bits in milliseconds is printed as a different one, or the program panics if built with overflow checks.
* C27 `Wm.Config.C27_millis_fails`: fails: every setting of more than 4294 ms means less than 4.295 s, with or without overflow checks: its nanoseconds are counted modulo 2^32. (As long as they fit 64 bits.)
* C27 `Wm.Config.C27_too_big_fails`: fails: a number that does not fit 64 bits silently means one second (or minute, hour, millisecond).
* C28 `Wm.Config.C28_ipv6_fails`: fails for IPv6 networks: an IPv6 entry of any length contains only its own address.
* C28 `Wm.Config.C28_length_zero_fails`: fails for length 0: "e/0" covers every address of the family but is read as "e" and contains only `e`.
* C30 `Wm.Config.C30_blank_fails`: fails: a value with a blank is printed without quotes. For every name and every value of two words: the text of a rule that adds a request header is rejected, and that of a rule that replaces a response header comes back as a rule for another header, named like the first word.
* C30 `Wm.Config.C30_blank_text_fails`: a text of blanks only makes the parser panic
* C30 `Wm.Config.C30_default_fails`: fails: no default rule survives: it comes back as something else, mostly as a replacement.
* C30 `Wm.Config.C30_proxy_del_fails`: fails: a request rule removing the header K comes back as a rule setting a header named "-" to K.
* C31 `Wm.Config.C31_dashes_fails`: fails: a text of dashes only panics instead of being rejected.
* C31 `Wm.Config.C31_no_own_address_fails`: fails: on a host without an address of its own (no network) every range ":a-:b" panics.
* C31 `Wm.Config.C31_range_end_fails`: fails: a range whose end is written with an address ("127.0.0.1:8869-192.168.0.100:8871", as the source comment documents) panics, for all addresses and ports.
* C32 `Wm.Config.C32_empty_fails`: fails for the empty set, whose text is rejected.
* C34 `Wm.Helper.C34_prefix_fails`: fails: a rule without `*` matches exactly the paths that begin with it.
* C36 `Wm.Helper.C36_replace_fails`: fails for replace: the old values stay, the new one is only added.
* C37 `Wm.Helper.C37_race_fails`: fails under interleaving: after any history, if a process writes its pid between the check and the deletion of another (a restart while the old process ends), then the other deletes this file, and no file is left.
* C38 `Wm.Limit.C38_full_fails`: fails for a full table, whatever the limits: when as many clients ask as the table holds, each request of a client may be passed that is the first in a hundred periods, though the client asked in every period without pause, so that all its requests form one window. (The refusals of a full table are not counted, and the cleanup forgets a client that never stopped asking.) So a window may have any number of requests that are passed.
* C38 `Wm.Limit.C38_zero_fails`: fails for a rate of zero: the first request of every client is passed.
* C41 `Wm.Health.C41_active_fails`: (addresses first seen by the active check) fails: such an address is forgiven after 30 seconds of silence, whatever happened to it and however long the configured timeout is.
* C41 `Wm.Health.C41_first_fails`: fails for a limit of one failure: the very first failure of an address does not take it out.
* C42 `Wm.Health.C42_timeout_fails`: fails with a time limit: an address that does not answer in time is tried, but nothing is recorded about it, so however often this happens it is never regarded as down; and later addresses are not tried.
* C43 `Wm.Health.C43_default_fails`: fails with the default settings of a configured server (30 seconds, two failures): after two failures the group with this one server yields nothing, though the server is not regarded as down by the records.
* C43 `Wm.Health.C43_overflow_fails`: fails for large weights: with overflow checks, picking panics.
* C43 `Wm.Health.C43_wrap_fails`: fails for large weights without overflow checks as well: the sum wraps around, and when the weights of two servers add up to 2^16 exactly, picking panics, whatever the records say - even when neither server is down.
* C43 `Wm.Health.C43_zero_fails`: fails when all weights are zero: picking from a non-empty group panics (drawing from an empty range).
* C44 `Wm.Health.C44_first_fails`: fails: whenever another usable server has a positive weight, the first usable server gets one draw too many; in particular it is chosen even with weight 0.
* C44 `Wm.Health.C44_last_fails`: fails: the last of several usable servers gets one draw too few.
* C44 `Wm.Health.C44_wrap_fails`: fails for large weights without overflow checks: when the weights of two servers add up to more than 2^16, the second one is never picked, whatever is drawn, though both are usable and have nearly the same weight.
* C45 `Wm.Reverse.C45_remote_fails`: fails for the condition on the address of this side: it is never looked at.
* C46 `Wm.Reverse.C46_limit_status_fails`: fails for the status: a request refused by the limit gets 404, not 503.
* C46 `Wm.Reverse.C46_no_address_fails`: fails for requests without a client address: every allow and deny list lets them pass.
* C46 `Wm.Reverse.C46_try_status_fails`: fails for the status: if every path of a try list leads to a location that refuses the client's address, the client is not told 503 but the status of the try list.
* C48 `Wm.Reverse.C48_log_format_fails`: fails for log formats: a format named in several blocks has the meaning given in the outermost one.
* C48 `Wm.Reverse.C48_log_names_fails`: fails for log names in the same way.
* C48 `Wm.Reverse.C48_not_passed_fails`: fails for six settings: the value of the outer blocks never reaches a location. Among them are the timeouts of the upstream connection.
* C48 `Wm.Reverse.C48_root_fails`: fails for the root of a location: when the location gives one, its file server is left as it was — it does not use that root, and none of the settings shared with the location (rate limit, buffer size) reach it.
* C49 `Wm.Files.C49_check_fails`: fails: the check meant to keep requests in the root never refuses any of them.
* C49 `Wm.Files.C49_encoded_fails`: fails also when the server library removes `..` from request paths: it may be encoded. Whatever the path becomes when it is decoded is put behind the root, for every decoding.
* C49 `Wm.Files.C49_prefix_fails`: fails even if `..` segments are removed from request paths beforehand: the prefix is cut off anywhere, also in the middle of a name. For every location whose prefix ends in a name, and every path without `..` next to the root: the request has no `..` segment, and gets the file of that path next to the root.
* C49 `Wm.Files.C49_traversal_fails`: fails: whatever follows the prefix of the location in a request, `..` included, is put behind the root as it is, and the file of this name is sent if there is one.
* C50 `Wm.Files.C50_beyond_fails`: fails beyond the end: a range that starts behind the end of the file is not refused.
* C50 `Wm.Files.C50_named_fails`: fails (Content-Range) for ranges without an end: to `bytes=a-` the answer names the length of the file as the number of the last byte that is sent, though the last byte of the file has the number before.
* C50 `Wm.Files.C50_open_fails`: fails for open ranges: `bytes=a-` is answered with the range from `a` to the length, one byte more than the file has.
* C50 `Wm.Files.C50_suffix_fails`: fails for suffix ranges: `bytes=-n`, the last `n` bytes, is answered with bytes 0 to `n`.
* C52 `Wm.Socks.C52_method_not_offered_fails`: fails as to the offer, for every configuration with credentials and every offer: a client that does not offer the password method, and has sent its credentials and its request at once with the offer, is told to use the password method and admitted, if any byte behind the offer happens to be 2, such as the length of its name.
* C53 `Wm.HttpProxy.C53_colon_fails`: is false for names and passwords with a colon: no request is ever passed on, whatever it presents.
* C53 `Wm.HttpProxy.C53_connects_first_fails`: is false: without any credentials a client makes the proxy connect to the target it names; every first request does.
* C54 `Wm.HttpProxy.C54_https_only_fails`: is false as to disabled protocols: with only https enabled, plain http requests are served, too.
* C54 `Wm.HttpProxy.C54_udp_flag_fails`: is false as to UDP: its flag contains those of https and socks5, so enabling only UDP forwarding serves both protocols.
* C55 `Wm.Udp.C55_order_fails`: is false as to order: the datagrams of one client may overtake each other. While the cache is gone through, a task may take a datagram from its full channel after one datagram was put back and before the next is looked at.
* C56 `Wm.Control.C56_abort_fails`: fails when a reload brings a configuration with a tunnel to a server that cannot be reached: in every state with running services the process ends, and these with it.
* C56 `Wm.Control.C56_failed_start_fails`: is false for a failing start: let a service be running that is the current one, and let a reload start a new one that fails (a port is taken, say). Then, whatever happens afterwards (unless the process has ended), the old service ends as soon as it looks at its channel.
* C57 `Wm.Log.C57_width_fails`: does not hold when the minimum is above the maximum: such a field always comes out too short, with exactly the maximum number of characters (the fill characters are cut too, and with right alignment they come before the text).
* C59 `Wm.HealthList.C59_location_fails`: does not hold for groups given in a location: an address that is only there is never checked.
* C60 `Wm.Virtual.C60_dead_tunnel_write_fails`: fails: once the tunnel is gone a writer never gets an error, nor a success: whatever happened before, any number of further write attempts all answer "wait", and nothing is sent.
* C61 `Wm.Config.C61_duration_never_rejected_fails`: fails for durations: no non-empty text at all is rejected.
* C61 `Wm.Config.C61_rate_extra_fails`: fails for rates: everything after a second slash is ignored instead of being rejected.
* C61 `Wm.Config.C61_size_suffix_fails`: fails for sizes: a number followed by any repetition of an unknown character is accepted, and so are repeated unit letters (only the last counts).
* C63 `Wm.Config.C63_udp_fails`: fails: the flag for UDP has the value 0x16 and so includes https and socks5: every flag set with UDP also enables the https and socks5 proxy.
* C64 `Wm.Limit.C64_reload_fails`: fails: registering a zone that is already known changes nothing, whatever the new settings; after a reload the old limit, rate and period stay in force.
* C65 `Wm.Reverse.C65_twice_fails`: fails with try_paths: one request to a location whose try list leads back to it is counted at least twice by its limit, for every location with a limit that lets the request pass.
* C66 `Wm.Reverse.C66_kept_fails`: fails: the answer over a kept connection — from the second request of a client's connection on — is passed on as it is, whatever the rules.
* C67 `Wm.Reverse.C67_websocket_fails`: fails: a WebSocket request is connected to a location's upstream although the location denies the client's address and its request limit refuses it; neither is looked at. For every location that matches first in the only server.
* C68 `Wm.Reverse.C68_closed_fails`: fails: when the kept upstream connection was closed in the meantime, the request is not sent anywhere and the client gets a 404.
* C69 `Wm.Reverse.C69_same_name_fails`: fails for server blocks of the same name (the default is the empty name) with proxied locations of the same rule, whatever else their settings are: after a request to the first (answered by its upstream server) a request of the same connection to the second does not open a connection to the second's upstream server. It is sent over the connection kept for the first, and what that gives is the answer.
* C70 `Wm.Files.C70_index_fails`: fails: a hidden file is sent as the index file of its directory. For every file system and configuration: if the first index file that a directory has is hidden, a request for the file itself gets no file, but one for the directory gets it.
* C70 `Wm.Files.C70_prefix_fails`: fails: a hidden file is sent when the slash after the prefix is left out of the request. For every file system, configuration and name `x` such that "/x" is hidden: the request for it is refused, but not the request without the slash.
* C71 `Wm.Files.C71_epoch_fails`: fails for a file whose last change is told as the first second of 1970 (as archives and images without times have it): a client gets 304 for any text that cannot be read as a date.
* C71 `Wm.Files.C71_range_fails`: fails with a range: a client whose copy is still good is told 416 when it also asks for a range that is refused.
* C72 `Wm.Files.C72_if_range_fails`: fails: a HEAD request with an If-Range header that does not match gets the whole file.
* C72 `Wm.Files.C72_page_fails`: fails for directory pages and the robots text: to HEAD the file server makes the same answer as to GET, with its content.
* C74 `Wm.Files.C74_rate_fails`: fails: the rate limit of a file server is never applied to a file, in no configuration.
* C75 `Wm.Files.C75_mime_fails`: fails: for an extension in the built-in table the configured type is ignored.
* C76 `Wm.Files.C76_panic_fails`: fails: a request below the prefix of the location panics whenever its percent-decoded path does not begin with this prefix.
* C77 `Wm.Socks.C77_early_data_fails`: is false, always: if some bytes `early` that the client sends behind its request arrive in the same piece as the end of the request, they never reach the target, while everything that arrives later does.
* C79 `Wm.Socks.Assoc.C79_fragment_fails`: fails: after one datagram marked as a fragment nothing of the client is sent on any more, though the association stays and goes on giving replies to the client until its TCP connection ends.
* C79 `Wm.Socks.C79_bad_datagram_fails`: is false: a datagram that is not addressed in the expected form, or is marked as a fragment, is not just dropped, it ends the association: nothing behind it is forwarded.
* C80 `Wm.Socks.C80_early_close_fails`: is false, always: a client that closes its connection within the first message (the method list) makes the handler panic.
* C80 `Wm.Socks.C80_short_datagram_fails`: fails: a datagram of exactly three bytes makes the association panic, and (as long as no host name resolves to an empty list of addresses) no other datagram does.
* C81 `Wm.HttpProxy.C81_header_fails`: is false, exactly: with credentials configured and no kept connection, a request to a reachable target makes the handler panic if its `Proxy-Authorization` is blank or its second word is not base64.
* C82 `Wm.HttpProxy.C82_first_fails`: is false from the first request on: if the target of a connection's first request is reached and answers — be it with an error — then every request of the connection goes there, and no other target is ever connected to.
* C82 `Wm.HttpProxy.C82_target_fails`: is false, always: once one request was passed on and its target answered, be it with an error, every later one of the connection goes to the target of that request, whatever target it names.
* C83 `Wm.HttpProxy.C83_credentials_leak_fails`: is false: with credentials configured, the credentials a client sends with its second request are sent on to the target.
* C84 `Wm.HttpProxy.C84_misspelt_fails`: is false for misspelt words: they are ignored, and a text of such words enables nothing.
* C84 `Wm.HttpProxy.C84_number_fails`: is false for numbers: each number with an unknown bit is taken as "http", which it may not even contain.
* C85 `Wm.Udp.C85_notice_fails`: is false: when the task of a client ends and the loop comes to write, the client gets an empty datagram the upstream server never sent.
* C85 `Wm.Udp.C85_stranger_fails`: is false: a datagram that anybody sends to the socket opened for a client — its sender `src` may be any address — is given to the client (if it is at most 9096 bytes long), who cannot tell it from the upstream server's.
* C86 `Wm.Udp.C86_cut_fails`: is false: a reply of more than 9096 bytes reaches the client cut.
* C87 `Wm.Udp.C87_blackhole_fails`: is false: if the task of a client has ended (its socket gave an error, for instance), then as long as the client goes on sending before its association is out of date, none of its datagrams is sent on, whatever else happens.
* C88 `Wm.Udp.C88_entries_fails`: is false: once a client has an entry in the table it is there for good, unless the same client sends again (when it is replaced): time, the end of its task, and other clients never remove it.
* C89 `Wm.Control.C89_panic_fails`: is false after a panic: when the task of a service panics, the process never ends by itself afterwards, even when all its services have ended.
* C89 `Wm.Control.C89_port_fails`: is false when the control port is taken: the process never ends, even when its only service could not start.
* C90 `Wm.Control.C90_replies_fails`: is false: in every history, every request for the present configuration is answered with the one of the first start, whatever was loaded since; and every reload is answered as successful, though it could not be read.
* C91 `Wm.Log.C91_format_fails`: does not hold: every pattern with a date format that the date library rejects ends every request that is logged or answered with it.
* C92 `Wm.Select.C92_data_before_create_fails`: fails on a multi-threaded runtime: the loop finds no new stream, then a task opens stream `id` and submits its first message, then the loop polls for submitted messages - and the message leaves before the announcement, for every stream and message.
* C94 `Wm.Select.C94_reading_starves_writing_fails`: fails: as long as the peer keeps the connection readable, neither end writes a single byte - whatever is submitted, however long this goes on.
* C95 `Wm.Tunnel.C95_stale_message_fails`: fails: a data message left over from a broken connection is sent on the next one, although no task submitted anything there; and if the server has given the same id to a new visitor on that connection, the visitor receives bytes that belong to somebody else. For every id and every payload that can be sent at all.
* C98 `Wm.Files.C98_refused_encoding_fails`: fails: a client that refuses gzip in the usual way ("gzip;q=0", whatever is listed before and after) gets the gzip form of every file that has one.
* C104 `Wm.World.C104_dropped_fails`: fails whenever a message of a visitor is dropped at the client because ten others wait for the local service (C14): whatever happens afterwards, the bytes of the message are left out of what is written to the service.
* C104 `Wm.World.C104_early_fails`: fails whenever the server writes bytes of a visitor before the open request of its stream (C92): whatever happens afterwards, these bytes are left out of what is written to the local service.
* C104 `Wm.World.C104_overtaken_fails`: fails when the visitor's first bytes overtake the open request (C92): they never reach the local service, which is given the rest as if nothing were missing. Here 1, 2 is sent and only 2 arrives.
* C104 `Wm.World.C104_slow_service_fails`: fails when the local service is slow (C14): the eleventh message arrives while ten wait, it is dropped, and the local service is given the messages before and after it. Here 0 .. 11 is sent, 10 is missing.
* C105 `Wm.World.C105_same_name_fails`: fails when mappings can be mistaken for each other, as all unnamed ones can: if a later mapping `m` has the name of the last mapping `x` of some mode (or has it as its domain), then every stream opened for a visitor of the listener for that mode goes to the service of `m`, whatever its mode.
* C106 `Wm.TransHttp.C106_later_requests_fails`: fails for later requests: everything a visitor asks for on one connection goes to the service of the host of the first request, with its header rules — whatever hosts the later requests name, and whatever mappings there are for them. One stream is announced, for the first host, and nothing else.
* C106 `Wm.TransHttp.C106_no_host_fails`: fails for requests without host, and for modes: such a request goes to the last mapping without domain, though this is a mapping for plain TCP (or any other mode).
* C106 `Wm.TransHttp.C106_other_service_fails`: fails when a mapping's name is another one's domain: the request gets the header rules of the one and goes to the service of the other. For all mappings `a`, `b`.
* C106 `Wm.TransHttp.C106_unknown_first_fails`: fails after a mistake: if the host of the first request has no mapping, no later request of the connection is served, whatever host it names: all get the notice.
* C107 `Wm.Listen.C107_plain_wins_fails`: fails when an address is also configured without TLS, in the same block or in an earlier one: it is listened on in the clear, though a block asks for TLS there.
* C108 `Wm.Listen.C108_other_address_fails`: fails: a block that is configured for one address only (say, an internal one, or one with TLS) serves requests that come to any other address with the same port, as soon as they name it; `l` is any listener without TLS, in no relation to the block but for the port.
* C109 `Wm.Listen.C109_sni_fails`: fails: once the client has asked for a block's name when it connected, all requests of the connection are served by this block (the first of that name for the port), whatever host they name, and whatever blocks there are for these hosts.
* C110 `Wm.Listen.C110_domain_fails`: fails for blocks with a domain: a client that asks for the domain, is shown the certificate of the block with this domain, and names the domain in its request, is served by the last block for the port, unless some block's *name* is the domain.
* C111 `Wm.Listen.C111_same_port_fails`: fails for a second address with the same port, for instance for the second of the addresses that stand for ":8869" (src/config/wrap.rs:64-65), or for the same address with UDP: of two different mentions of a port at most one is listened on.
* C112 `Wm.Listen.C112_one_at_a_time_fails`: fails: whatever happens, a connection to a stream listener is not forwarded before all earlier ones — to any stream listener — have ended. One connection that stays open holds up all others.
* C113 `Wm.Listen.C113_clear_fails`: fails: if the certificates cannot be read, the service starts and the tunnel runs in the clear on both sides, though TLS is asked for.
* C113 `Wm.Listen.C113_key_fails`: fails in the same way for every key file that has not exactly one key in the format PKCS#1 — for instance one with a key in the format PKCS#8 (`BEGIN PRIVATE KEY`), which is a usual one, or with a key on an elliptic curve: at the server, and at a client that is to prove its identity.
* C113 `Wm.Listen.C113_misfit_fails`: fails for certificates and keys that do not fit together: again in the clear.
* C113 `Wm.Listen.C113_no_listener_fails`: fails for HTTPS visitors of the tunnel: with certificates or a key that cannot be read the service starts without the listener.
* C113 `Wm.Listen.C113_root_panics_fails`: with two-way authentication, a certificate that cannot serve as a root makes the start panic.
* C114 `Wm.Core.C114_first_only_fails`: fails: Services of other clients cannot be reached: whatever the clients offer that connected later, visitors asking for something that the first one does not offer are dropped.
* C114 `Wm.Core.C114_silent_fails`: fails: Such a connection needs to send nothing: as soon as credentials are configured, a connection that stays silent is one.
* C114 `Wm.Core.C114_stranger_fails`: fails: Anybody can make all services unreachable without knowing a password: a connection that is open and has not logged in, whatever it sent, has visitors of all kinds dropped, if it came before the connections of the clients that offer the services.
* C115 `Wm.Core.C115_blocked_fails`: fails: While the main task waits for the handshake with one client of the tunnel (or for the connection to the upper server), or for room in the channel of the tunnel client, nothing else is accepted and a request to stop is not followed, for as long as this takes and whatever else happens.
* C115 `Wm.Core.C115_full_fails`: fails: With a tunnel to a server, as soon as ten more connections to the proxy were handed on than the tunnel client has taken, the main task waits with the next one, and accepts no connection of any kind before the tunnel client takes one.
* C115 `Wm.Core.C115_silent_client_fails`: fails: With TLS for clients of the tunnel, a single connection that says nothing is enough for this; with an upper server, one connection while that server cannot be reached.
* C116 `Wm.World.C116_dropped_fails`: fails whenever the notice that a visitor has gone is dropped at the client because ten messages wait for the local service (C14): whatever happens afterwards, the connection to the service is never told the end, as long as the tunnel lives.
* C116 `Wm.World.C116_early_fails`: fails whenever the server writes the notice that a visitor has gone before the open request of its stream (C92): whatever happens afterwards, the connection to the local service is never told the end, as long as the tunnel lives.
* C116 `Wm.World.C116_overtaken_fails`: fails when the notice that the visitor has gone overtakes the open request (C92): the connection to the local service is opened after the visitor has left, both tunnel ends are at work, nothing is under way, and nobody ends it.
* C116 `Wm.World.C116_slow_service_fails`: fails when the local service is slow (C14): the notice arrives while ten messages wait and is dropped. When the service has taken all of them, its connection stays open, though the visitor has gone.
* C117 `Wm.Target.C117_down_fails`: fails when the group's server has the default health settings and failed twice: instead of being answered with an error, requests are sent to whatever host the network knows by the group's name.
* C117 `Wm.Target.C117_empty_fails`: fails for a group without servers: requests are sent to the host of that name.
* C117 `Wm.Target.C117_no_host_fails`: fails for a URL without host: every request to the location ends in a panic of its connection's task.
* C117 `Wm.Target.C117_tls_name_fails`: fails for TLS: a server of a group is asked for a certificate for its bare address, never for the host in the URL.
* C118 `Wm.Target.C118_port_fails`: fails when the URL has a port: the connection is made to that port of the picked server's host, whatever port the server is configured with.
* C118 `Wm.Target.C118_udp_fails`: fails for UDP blocks: where TCP blocks use the innermost group of the name, UDP blocks use the outermost (the last of that name).
* C118 `Wm.Target.C118_udp_unnamed_fails`: fails for UDP blocks without `up_name`: where TCP blocks use the first group, UDP blocks have no address.
* C119 `Wm.Target.C119_dropped_fails`: fails when the URL's host is not the name of a group — where plain requests are sent to that host —: the WebSocket is accepted, and every message the visitor ever sends is read and dropped; nothing is ever sent to the visitor.
* C121 `Wm.Cli.C121_run_fails`: fails for `run`: none of the options has any effect except `--verbose` — the address of the control server, switching it off, the file for the process id, the log level and the output are those of the file.
* C122 `Wm.Cli.C122_extension_fails`: fails: a path without extension makes both `check` and `run` panic.
* C122 `Wm.Cli.C122_status_fails`: fails: the exit status is 0 whether or not the configuration can be read (or the file is there at all), so a script cannot tell.
* C122 `Wm.Cli.C122_unchecked_fails`: fails: what `check` says to be right is refused by `run` when the rest of the configuration does not hold (`afterLoad`).
* C123 `Wm.Cli.C123_closed_fails`: fails: a request that comes when the connection kept for the one server was closed meanwhile, is sent nowhere; its client is told 404. The request after it is sent again. For every server block made by `reverse-proxy`.
* C124 `Wm.Cli.C124_case_fails`: fails: a mode spelled with capital letters is accepted and then ignored: connections are forwarded as plain TCP.
* C125 `Wm.Cli.C125_ignored_fails`: fails: `--browse` and `--ext-mimetype` have no effect; directories are listed in any case.
* C126 `Wm.Cli.C126_error_fails`: fails: when the program ends with an error — an unreadable or refused configuration, TLS addresses without certificate or key, an unknown mode of `ws-proxy`, a service that ends with an error — its exit status is 0, so it is not started again.
* C126 `Wm.Cli.C126_stop_fails`: fails with `stop`: `stop` without arguments kills the process whose id is in the file, and the program started with `--forever` starts it again.
* C127 `Wm.Chain.C127_dropped_fails`: fails whenever a message of the proxy is dropped at the client because ten others wait for the user (C14): whatever happens afterwards, the bytes of the message are left out of what is written to the user.
* C127 `Wm.Chain.C127_early_fails`: fails whenever the client writes bytes of a user before the open request of its stream (C92): whatever happens afterwards, these bytes are left out of what the proxy's task reads.
* C127 `Wm.Chain.C127_overtaken_fails`: fails when the user's first bytes overtake the open request (C92): they never reach the proxy, which is given the rest as if nothing were missing. Here 1, 2 is sent and only 2 is read.
* C127 `Wm.Chain.C127_repeated_fails`: fails when the server is busy (C23): a write of the proxy finds the outgoing channel full with the messages of other streams and has to be repeated, and the user is given the bytes twice. The proxy writes 7 once; the user is given 7, 7.
* C127 `Wm.Chain.C127_slow_user_fails`: fails when the user is slow (C14): the eleventh message arrives at the client while ten wait, it is dropped, and the user is given the messages before and after it. Here the proxy writes 0 .. 11, and 10 is missing.
* C127 `Wm.Chain.C127_waited_fails`: fails whenever a write of the proxy's task had to wait (C23): once nothing is under way from the task to its user, and no message was dropped at the client, the user has been given all that the task offered, attempt by attempt, hence more bytes than the task was told were written, by those of the writes that had to wait, once for each time.
* C128 `Wm.Chain.C128_early_fails`: fails whenever the client writes the notice that a user has gone before the open request of its stream (C92): whatever happens afterwards, the proxy's task is never told the end of the stream, as long as the tunnel lives.
* C128 `Wm.Chain.C128_left_open_fails`: fails: the proxy's task of a user has ended, nothing is under way, both tunnel ends are at work, and the user's connection stays open.
* C128 `Wm.Chain.C128_never_told_fails`: fails: whatever the proxy's task of a user's stream does, be it that it leaves because the target closed its connection, the user's connection is never told the end of the stream, as long as the tunnel lives.
* C128 `Wm.Chain.C128_overtaken_fails`: fails when the notice that the user has gone overtakes the open request (C92): the proxy is started for a user who has left, and is never told.
* C129 `Wm.Access.C129_answer_fails`: fails for the answer: the line of a request is written before there is an answer, so that it is the same whatever the answer is; status, size and times in a log format never tell anything about it.
* C129 `Wm.Access.C129_kept_fails`: fails for kept connections: a request answered over the upstream connection of an earlier one — from the second request of a client's connection on — leaves no line in any log.
* C129 `Wm.Access.C129_many_fails`: fails with try lists: one request may write any number of lines. Here the only location takes every path, and its handler answers every path of its try list with 404: there is a line for every path of the list.
* C129 `Wm.Access.C129_refused_fails`: fails for refused requests: a request refused by the limit or for its address leaves no line in any log.
* C130 `Wm.Access.C130_command_line_fails`: fails on the command line: with `--access-log path` a file server or reverse proxy opens the file, and never writes a line to it, nor anywhere else.
* C130 `Wm.Access.C130_default_levels_fails`: fails for the default levels: an access log given without level, whose file is given without level, stays empty, whatever the requests: its lines have level trace, and the file shows info.
* C130 `Wm.Access.C130_format_fails`: fails: an access log whose format no block explains writes nothing, and is not rejected.
* C130 `Wm.Access.C130_level_fails`: fails: a level that does not exist in the text of a log is not rejected: the log shows info.
* C130 `Wm.Access.C130_main_fails`: fails for a format named `main` in a server or location block: it is never used, also when the http block gives none.
* C130 `Wm.Access.C130_other_file_fails`: fails for different texts: a server that names a log like a server before it never gets the file it asks for; its lines go to the file of the first one (or of the http block, if that names it too).
* C130 `Wm.Access.C130_unknown_fails`: fails: an access log whose name no block explains is not rejected: its lines go to the terminal and the log `default`, if the level given on the command line shows them (without one, all are shown).
* C130 `Wm.Access.C130_unopened_fails`: fails: a log file that cannot be opened — on starting as on reloading — is not reported as an error: the program panics.
* C131 `Wm.Texts.C131_blanks_fails`: fails for other ways to separate settings: where zone texts and other lists of words take any whitespace, a text with two blanks in a row, or with a blank at its end, is rejected.
* C132 `Wm.Texts.C132_blank_fails`: fails: a text without any word ends the program instead of being rejected.
* C132 `Wm.Texts.C132_print_fails`: fails for other periods: every zone whose period is longer than 4294 ms and not in whole seconds is not read again as it was printed.
* C133 `Wm.Texts.C133_ignored_fails`: fails: an entry beginning with `=` that is no status is ignored instead of being rejected.
* C133 `Wm.Texts.C133_print_fails`: fails for printed settings: the status is printed without `=`, so reading the printed text never gives the setting again: the status becomes a path to be tried. (Whatever the library prints for a status, provided it begins neither with whitespace, nor a quote, nor `=`.)
* C134 `Wm.Texts.C134_format_fails`: fails for access logs without format: the printed level is read as the format.
* C134 `Wm.Texts.C134_level_fails`: fails: a level that does not exist, or any text after the level, is not rejected: the level is trace, whatever was written.
* C135 `Wm.Texts.C135_print_fails`: fails for sets of two or more members: the names are printed without anything between them, so that the printed text is never read as the set, in whatever order its members come: it is rejected or gives at most one member.
* C136 `Wm.Rewrite.C136_invalid_fails`: fails for an expression that is not valid: the mistake is not reported, and the path is the whole entry, with the expression and the replacements in it.
* C136 `Wm.Rewrite.C136_quoted_fails`: fails likewise for an entry that is one word in quotes, with whitespace in it: the path becomes empty, whatever the word and the request.
* C136 `Wm.Rewrite.C136_two_words_fails`: fails for an entry of two words, such as the name of a file with a blank in it: the first word is taken for a regular expression, and the path becomes empty.
* C137 `Wm.Rewrite.C137_panic_fails`: fails: a text with a date format that the date library rejects (see C91) is not refused when it is configured, and there is no answer: serving the request panics.
* C138 `Wm.Answer.C138_first_fails`: fails for several blocks for a port: requests for a later block are served by that block with the timeouts of the first one, whatever is configured for the later one.
* C138 `Wm.Answer.C138_idle_fails`: fails for the time between requests: given for `http`, it never has an effect on the servers.
* C138 `Wm.Answer.C138_upstream_fails`: fails for upstreams: given for a server or for `http`, the timeouts for reading, for writing and for a whole request have no effect on the upstream connections of the locations; only the one for connecting has.
* C139 `Wm.Answer.C139_timeout_fails`: fails for upstreams that take too long: the client is told that it was too slow itself (408), not that the upstream was. Here for a location that admits the client, with no limit and no try list.
* C140 `Wm.Builder.C140_missing_fails`: fails for five settings: no call gives the number of the server, the certificate and key of mappings, and the proof of identity with TLS; and listening cannot be turned off.
* C140 `Wm.Builder.C140_udp_fails`: fails for datagrams: adding UDP turns on HTTPS and SOCKS5 as well, even after they were left out.
* C141 `Wm.Builder.C141_first_fails`: fails for a name with several addresses: if the first cannot be bound, the others are not tried.
* C141 `Wm.Builder.C141_udp_v6_fails`: fails for datagrams over IPv6: on a system that does not bind sockets for IPv4 to addresses of IPv6 — and none does — no such address is ever opened.
* C142 `Wm.Tunnel.C142_client_fails`: fails at the client likewise.
* C142 `Wm.Tunnel.C142_server_fails`: fails at the server: as long as the connection lasts, the last stream under an id is kept, whatever has happened to it — be it closed by either side, and its task long gone.
* C142 `Wm.Tunnel.C142_unbounded_fails`: fails without bound: after any number of streams that were opened and have ended one after the other, all of them are still kept.
* C143 `Wm.Tunnel.C143_client_output_fails`: fails for the client likewise.
* C143 `Wm.Tunnel.C143_refused_fails`: fails for a peer that was refused: until it takes the notice of its refusal, everything that it sends is kept, however much that is. (While input is there the loop reads it, rather than sending the notice.)
* C143 `Wm.Tunnel.C143_server_output_fails`: fails for output: from every state with nothing waiting to be handed over, a peer that takes nothing makes an end keep as many more messages as its own streams have, without bound; the streams are not slowed down. Here for the server.
* C144 `Wm.Select.C144_client_fails`: fails at the client as soon as its service was replaced, whether or not streams are open: they get nothing more, and are not told.
* C144 `Wm.Select.C144_client_silent_fails`: fails likewise for a connection that a client makes after its service was replaced: it never introduces itself.
* C144 `Wm.Select.C144_server_fails`: fails at the server: after the service was replaced and the last visitor has gone, the end of the tunnel takes fourteen more turns at most; then it never reads or sends anything again, nor is the connection closed, whatever happens. (What its streams' tasks still submit stays where it is.)
* C144 `Wm.Select.C144_server_idle_fails`: fails at once at a server end that has nothing to do at that moment: of all that the client sends from then on not one byte is read, and the client is not told.
* C145 `Wm.Listen.C145_exit_fails`: fails when the server above cannot be reached at the time of the start: the process exits, with all that it is doing (other services too, see C56); it is not tried again, as it is when the connection is lost later (C95).
* C145 `Wm.Listen.C145_https_fails`: fails for HTTPS visitors: with certificates that cannot be used the service starts as if no address had been configured for them, provided that it can be opened.
* C145 `Wm.Listen.C145_no_bind_fails`: fails without an address for the proxy: whatever server and mappings are configured, the service starts and has no tunnel, so that no mapping is offered.
* C145 `Wm.Listen.C145_same_address_fails`: fails to tell apart two roles with the same address, where the operating system opens an address more than once (as the program asks for): the start does not fail, and a connection to the address gets to either of the two.
* C147 `Wm.Files.C147_characters_fails`: fails for a name with a backslash, `?` or `#`: following its link never leads to the entry, whatever the directory contains.
* C147 `Wm.Files.C147_percent_fails`: fails for a name that reads as percent-encoded: if the link can be decoded and no `%` is left, following it never leads to the entry; it leads to the file with the decoded name, if there is one.
* C148 `Wm.Files.C148_markup_fails`: fails: a name of an entry is put into the page as it is, so that it is read as part of the page: with a `<` in it the page has more tags than its fixed texts.
* C149 `Wm.Files.C149_page_fails`: fails with a page for it: the page is sent like any other file, never with status 404.
* C150 `Wm.Control.C150_exit_fails`: fails for what is being served when a reload fails to start while the old service is the only other one: the old one ends too (C56), then the process, and all connections with it.
* C150 `Wm.Control.C150_failed_start_fails`: fails in a reload whose start fails after it has opened a listener (because another address is taken, say): the connections given to it are lost, although the old service is listening on the same address.
* C150 `Wm.Control.C150_reload_fails`: fails in every reload: the connections that the operating system gives to the old service, which goes on listening beside the new one until it has been told, and that it has not taken by then are lost — although the new service is listening on the same address all the time.
* C151 `Wm.Control.C151_stop_twice_fails`: fails: if the current service is still starting (its connection to the server of the tunnel hangs, say), then after two requests to stop no request is answered any more, as long as the start neither succeeds nor fails.
* C151 `Wm.Turns.C151_accept_fails`: fails after an error: if accepting fails once at the control port while nothing waits there and no message that a service is gone, no connection is accepted at the control port any more, however many come, until a service ends.
* C152 `Wm.Control.C152_hanging_fails`: fails: let the current service hang in its start, and let it be asked to stop. Then a reload does not help: its service opens its listeners, but serves nobody as long as the start before it neither succeeds nor fails.
* C153 `Wm.Ring.C153_ring_fails`: fails for good when the server's proxy is used through the tunnel: the data of one stream goes to a target that sends back what it gets, and that takes no more while its answers are not read. The loop of the server's end waits for room in the channel of the stream; the proxy's task waits for the target; the target waits for the task to read; the task waits for room in the outgoing channel; and only the loop would empty this. From then on, whatever any task does, nothing more is read from the tunnel, decoded, delivered to any stream, or written, and no byte that is held anywhere in the ring moves. This holds whatever the size of the target's memory (from the size of a copy buffer up), with reads of at most 20480 bytes; nobody broke a rule.
* C153 `Wm.Tunnel.C153_waiting_fails`: fails at the server: a message for a stream has been decoded and could not be handed over, because ten wait for the stream's task. Whatever happens from now on, until that one task takes a message or ends: nothing more is read from the tunnel, no message is decoded or delivered to any stream, nothing is accepted for sending, and nothing is written - not even what was accepted before.
* C154 `Wm.Relay.C154_reads_on_fails`: fails towards the tunnel: a relay goes on reading while the tunnel takes nothing, in every state and for every sequence of pieces; all that was read is kept.
* C154 `Wm.Relay.C154_takes_on_fails`: fails towards the local connection: a relay goes on taking messages while the local side takes nothing, in every state and for every sequence of messages; all their bytes are kept.
* C155 `Wm.Log.C155_default_fails`: fails: a default is never printed: `{X(key)(default)}` prints nothing, whatever the key and the default, and as wide a blank as a width asks for.
* C156 `Wm.Config.C156_request_removal_fails`: fails: a removal of a header from requests without value is read as a rule that sets a header named `-`.
* C156 `Wm.Config.C156_wrong_fails`: fails: with a first word that is no sign, three words are not rejected: the first one is ignored; and with a second word that is no sign after `proxy`, four words are not rejected either.
* C158 `Wm.World.C104_overtaken_fails`: fails when the visitor's first bytes overtake the open request (C92): they never reach the local service, which is given the rest as if nothing were missing. Here 1, 2 is sent and only 2 arrives.
* C158 `Wm.World.C104_slow_service_fails`: fails when the local service is slow (C14): the eleventh message arrives while ten wait, it is dropped, and the local service is given the messages before and after it. Here 0 .. 11 is sent, 10 is missing.
* C160 `Wm.Socks.Assoc.C160_stranger_fails`: is false, always: the socket of an association is open to everybody. If the first datagram it reads is that of somebody else than the client, then whatever happens later no datagram of the client is accepted any more, and everything that comes back is given to that other one.
* C161 `Wm.Socks.Assoc.C161_early_fails`: is false: whoever sends a datagram to the outer socket of an association before the client has used it ends the association; nothing is forwarded after that.
* C161 `Wm.Socks.Assoc.C161_large_fails`: is false: a datagram of up to 65507 bytes can come from outside, but with the header in front one of more than 65497 bytes is too long to be sent on (65507 is the limit of UDP over IPv4); the association ends with it.
* C162 `Wm.Files.C162_pages_fails`: fails for directory pages and messages: they never carry the configured time or the lines for other origins.
* C164 `Wm.Files.C164_label_fails`: fails with compression switched off: the precompressed form is sent all the same to a client that accepts it, and labelled as not encoded, so that the client takes the compressed bytes for the file.
* C165 `Wm.Files.C165_capital_fails`: fails for endings with a capital letter (`.HTML`, `.JPG`): no built-in type is known for them; if nothing is configured for this spelling they are labelled with the default type.
* C165 `Wm.Files.C165_rar_fails`: fails for archives with the ending `rar`: what they are labelled with has two slashes and so is no media type, whatever is configured.
* C166 `Wm.Files.C166_range_fails`: fails with a range: a HEAD request is told that a part is sent, but announces the length of the whole file — for every range that is served and every file.
* C168 `Wm.Files.C168_head_fails`: fails for HEAD: every answer 200 to a HEAD request without `If-Range` for a file says both.
* C168 `Wm.Files.C168_robots_fails`: fails for the robots text: whatever is asked for it, the answer says both that it has a length and that it is chunked.
* C170 `Wm.World.C170_lost_fails`: fails when the notice has overtaken the open request (C92), and when it met a full channel (C14): from there, however what is under way is passed on, the connection to the local service of the visitor that has gone stays open.
* C171 `Wm.Reverse.C171_kept_fails`: fails for every try list that comes to a kept upstream connection: whatever that connection gives, an answer with an error status or none at all, every handler asked after it gets the request without its body.
* C171 `Wm.Reverse.C171_second_fails`: fails for try lists: when the first entry goes to a proxy and its upstream server answers with an error status, the handler of the second entry gets the request without its body.
* C172 `Wm.Reverse.C172_host_fails`: fails for try lists: when the first entry goes to a proxy (whose upstream server answers with an error status), the second entry is looked up with the address of that server as its host. If the only locations for it are bound to the host the client named, none is found, and the answer is the status of the list.
* C173 `Wm.Log.C173_unclosed_fails`: fails: after a name that is followed by something else than a closing brace, a width or an argument (such as a blank) the whole rest of the pattern is lost, whatever it is.
* C174 `Wm.Limit.C174_burst_fails`: fails (builds with overflow checks): if rate and burst together reach 2^64, a client that uses up its rate ends the handling of its next request, and from then on every request to any limited location fails, of whatever client and zone, and so does every load of a configuration with limits, until the process is restarted.
* C174 `Wm.Limit.C174_period_fails`: fails (every build): if a hundred periods reach 2^64 seconds, the first request that finds a tenth of the table used (with a limit below ten, the very first request) ends, and from then on every request to any limited location fails.
* C174 `Wm.Limit.C174_wrap_fails`: fails (other builds): such a client is refused at once where it should be delayed, as the burst is lost.
* C175 `Wm.Log.C175_level_fails`: fails: the level is shown as INFO, whatever level the log is configured with.
* C175 `Wm.Log.C175_nothing_fails`: fails: the fields for the user, the status, address and time of the upstream server, the bytes sent, the time taken, the parameters of TLS, the message and its target never show anything but the filling of their width.
* C175 `Wm.Log.C175_status_fails`: fails: the status is never known, and neither is the place in the program: they are shown as `???`, whatever the request and however it was answered.
* C176 `Wm.Config.C176_negative_fails`: fails: a negative number is taken, in both formats, and means one second.
* C176 `Wm.Config.C176_yaml_fails`: fails: in a YAML file every number without a minus is rejected, and the configuration with it.
* C178 `Wm.Socks.Assoc.C178_v6_fails`: is false: if the address set for UDP is one of IPv6, the client is told this address, but the socket of the association is bound to IPv4, and no datagram sent to the address told comes to it.
* C179 `Wm.Socks.Assoc.C179_v6_fails`: is false: one datagram that asks to send something to an address of IPv6 ends the association: nothing is sent for it, and nothing for later datagrams.
* C181 `Wm.Contact.C181_contact_fails`: fails for the server's part: after three failed attempts in a row, each no more than a minute after the one before, a client whose server is away goes on connecting every second, but for a minute - sixty times - the server is not contacted, whatever happened before. If it comes back in this time the client does not notice.
* C181 `Wm.Redial.C181_crash_fails`: fails: when the server sends a token, or a message that the client cannot decode without crashing (one of an unknown kind, see `C09_panic_iff_partial`), the client never connects again - whatever happens afterwards. The messages that arrived before can be anything: for every state of the connection in which all messages so far were handled.
* C181 `Wm.Redial.C181_stuck_fails`: fails: when the server asks for a service that the client does not offer, while the client's queue of messages to be sent is full, the client does not even notice that its connection is lost, and never connects again.
* C182 `Wm.Pass.C182_host_fails`: fails for `Host`: of requests of one client's connection to one location, the first goes with the upstream server's address as its only `Host`, whatever the client sent, and the others — to the same server — with what the client sent.
* C182 `Wm.Pass.C182_rules_fails`: fails: the rules for requests that are configured for a location — such as `proxy x-forward-for {client_ip}` in the example configuration — have no effect: whatever the rules, a header (other than `Host`) that the client did not send is in no request handed to an upstream server, and all requests are those without any rules.
* C184 `Wm.Turns.C184_busy_fails`: fails for busy groups: while at each turn of the group something waits at a listener before it, nothing is accepted at a listener, for as long as this goes on and however often the group gets its turn.
* C184 `Wm.Turns.C184_fault_fails`: fails after an error: if accepting fails once at a listener that there is one of, while nothing waits anywhere, nothing is accepted there any more, whatever comes there and however often the task looks, until a connection comes somewhere else.
* C209 `Wm.PidFile.C209_again_fails`: fails when `stop` is used twice: after any history, `stop` ends the process that the file names and leaves the file; when another process has got this number, the next `stop` sends its signal to that one.
* C209 `Wm.PidFile.C209_crash_fails`: fails after a crash: if the process that the file names ends otherwise than by returning properly, and another process gets its number, `stop` sends its signal to that one.
* C209 `Wm.PidFile.C209_two_fails`: fails with two processes of this program: when the one started last has returned, `stop` does nothing, though the other one is still running.
* C210 `Wm.Tunnel.C210_client_unnoticed_fails`: fails at the client, always: that writing to the connection fails changes nothing. However often it fails, the client's end is as it was: it does not end, it closes no stream, makes no new connection, and goes on to take what its streams write, which can never arrive. (Only a failing read ends it, C18.)
* C210 `Wm.Tunnel.C210_server_write_fails`: fails at the server, always: when writing to the connection fails while the end has something to write, the end crashes (`todo!()`), whatever happened before, and nothing more happens to it.
* C211 `Wm.Reverse.C211_counted_fails`: fails, always: a request of a client that the location does not let in is counted by the location's limit as any other.
* C211 `Wm.Reverse.C211_shut_out_fails`: fails: clients that a location never lets in shut out those it lets in. As many of them as the zone of the location's limit has places ask once; from then on a client that the location lets in, and that never asked before, is refused by the limit, and no handler gets its request. (All of this within one moment; the places become free again only after 50 periods of the limit at the earliest.)
* C213 `Wm.Failover.C213_default_fails`: fails with the settings a configured server has by default (30 seconds, two failures): in a group of two such servers, after two requests were lost at the one that refuses, every request that draws a number above 100 (of 200) in the next 30 seconds is lost as well, though the other server accepts every connection. No server is tried for it, so nothing is recorded, and this goes on for any number of requests.
* C213 `Wm.Failover.C213_hang_fails`: fails for servers that do not answer: nothing is recorded when the time for the connection is over, so such a server is never left out. For every group whose first server does not answer, every number of requests that draw it is lost, whatever the other servers would do.
* C213 `Wm.Failover.C213_retry_fails`: fails for the request itself: when the server picked refuses the connection, the request is answered with an error and no other server of the group is tried, for every group, all records and whatever the others would answer.
* C214 `Wm.Health.C214_others_fails`: fails: after three attempts in a row to connect to a target failed, no more than a minute apart, on behalf of any client, every client is told for a minute that the target cannot be reached - though it now can, and nobody tries.
* C215 `Wm.Health.C215_kept_fails`: fails: of every address that anybody ever made the program connect to, a record is kept for ever - whatever happens afterwards, and however much time passes; so there are as many records as different addresses asked for.
* C216 `Wm.Udp.C216_in_fails`: fails for what clients send: in every run in which no client's task gets to send (its socket does not take anything) and none ends, all datagrams that ever arrived wait inside the program, however many.
* C216 `Wm.Udp.C216_out_fails`: fails for what comes back: in every state in which the task of a client is at work and the channel back has room, if the socket towards the clients takes nothing for a while, every number of replies piles up.
* C219 `Wm.Chain.C127_overtaken_fails`: fails when the user's first bytes overtake the open request (C92): they never reach the proxy, which is given the rest as if nothing were missing. Here 1, 2 is sent and only 2 is read.
* C221 `Wm.Chain.C127_repeated_fails`: fails when the server is busy (C23): a write of the proxy finds the outgoing channel full with the messages of other streams and has to be repeated, and the user is given the bytes twice. The proxy writes 7 once; the user is given 7, 7.
* C221 `Wm.Chain.C127_slow_user_fails`: fails when the user is slow (C14): the eleventh message arrives at the client while ten wait, it is dropped, and the user is given the messages before and after it. Here the proxy writes 0 .. 11, and 10 is missing.

## Axioms per theorem

As printed by `lean/Verif/Audit.lean`, which also fails the build if any theorem of the project uses another axiom.

none (2 theorems):
`Prot.C07_no_panic`, `Reverse.C46_limit_status_fails`

propext (35 theorems):
`Config.C28_ipv6_fails`, `Config.C61_rate_extra_fails`, `Config.C61_duration_never_rejected_fails`, `Config.C62_rate_meaning`, `Helper.C34_prefix_fails`, `Helper.C34_exact_partial`, `Helper.C36_replace_fails`, `Health.C41_first_fails`, `Health.C42_timeout_fails`, `Reverse.C45_remote_fails`, `Reverse.C46_no_address_fails`, `Reverse.C48_inner_wins_partial`, `Reverse.C48_lists`, `Reverse.C48_not_passed_fails`, `Reverse.C48_root_fails`, `Reverse.C66_first_partial`, `Files.C75_mime_fails`, `Files.C76_panic_fails`, `HttpProxy.C53_asked_partial`, `HttpProxy.C53_connects_first_fails`, `Udp.C86_whole_partial`, `Log.escape_escaped`, `Files.C98_not_asked`, `Listen.C110_single`, `Listen.C113_clear_fails`, `Listen.C113_no_listener_fails`, `Target.C117_no_host_fails`, `Target.C118_udp_fails`, `Target.C118_udp_unnamed_fails`, `Cli.C126_rounds`, `Cli.C126_restart_partial`, `Builder.C141_first_fails`, `Builder.C141_udp_v6_fails`, `Control.C150_in_turn`, `Control.C151_stop_partial`

propext, Quot.sound (209 theorems):
`Prot.C03_consumes_whole_frames`, `Prot.C07_failed_encode_atomic_partial`, `Relay.C19_bytes_preserved`, `Relay.C20_one_close`, `Relay.C20_close_is_sent_and_last`, `Relay.C20_ways_to_end`, `Relay.C21_sent_when_tunnel_keeps_up_partial`, `Relay.C21_written_when_local_keeps_up_partial`, `Relay.C21_half_close_loses_input_fails`, `Relay.C21_close_loses_output_fails`, `Virtual.C22_end_told`, `Virtual.C22_all_read`, `Virtual.C22_rest_lost_fails`, `Virtual.C22_reads_in_order`, `Virtual.C22_eof_after_data_partial`, `Virtual.C22_eof_before_data_fails`, `Virtual.C23_writes_once_partial`, `Virtual.C23_retry_duplicates_fails`, `Virtual.C60_dead_tunnel_write_fails`, `Config.C28_sound`, `Config.C30_rule_roundtrip_partial`, `Config.C30_default_fails`, `Config.C30_proxy_del_fails`, `Config.C30_blank_fails`, `Config.C30_blank_text_fails`, `Config.C35_split_words`, `Config.C61_size_rejects_partial`, `Config.C63_independent_partial`, `Config.C63_udp_fails`, `Helper.C36_others_unchanged`, `Helper.C36_other_side`, `Helper.C37_race_fails`, `Limit.C38_zero_fails`, `Limit.C40_full`, `Limit.C40_forgets`, `Limit.C40_bounded`, `Limit.C40_full_refused`, `Health.C42_connect`, `Health.C43_wrap_fails`, `Health.C43_configured`, `Health.C43_default_fails`, `Health.C43_zero_fails`, `Health.C43_overflow_fails`, `Health.C44_wrap_fails`, `Reverse.C45_server`, `Reverse.C48_error_log`, `Reverse.C48_match_names`, `Reverse.C48_log_format_fails`, `Reverse.C48_log_names_fails`, `Reverse.C66_kept_fails`, `Reverse.C68_closed_fails`, `Reverse.C68_recovers_partial`, `Reverse.C69_own_connection_partial`, `Files.C49_inside_partial`, `Files.C49_check_fails`, `Files.C49_traversal_fails`, `Files.C49_encoded_fails`, `Files.C50_ordered`, `Files.C70_hidden_partial`, `Files.C70_prefix_fails`, `Files.C71_modified`, `Files.C72_head_partial`, `Files.C72_if_range_fails`, `Files.C73_etag`, `Files.C74_listing_partial`, `Files.C74_rate_fails`, `Files.C75_mime_partial`, `Files.C76_no_panic_partial`, `Socks.C51_layout`, `Socks.C51_address_roundtrip`, `Socks.C51_address_only`, `Socks.C52_unreachable`, `Socks.C52_credentials_enough`, `Socks.C52_no_credentials`, `Socks.C52_method_offered_partial`, `Socks.C52_method_not_offered_fails`, `HttpProxy.C54_bytes`, `HttpProxy.C54_socks`, `HttpProxy.C54_http`, `HttpProxy.C54_https_only_fails`, `HttpProxy.C54_udp_flag_fails`, `Socks.C77_separate_data_partial`, `Socks.C77_early_data_fails`, `Socks.C78_layout`, `Socks.C78_udp_forward`, `Socks.C78_udp_reply`, `Socks.Assoc.C79_fragment_fails`, `Socks.C79_good_datagrams_partial`, `Socks.C79_bad_datagram_fails`, `Socks.C80_handshake_partial`, `Socks.C80_early_close_fails`, `Socks.C80_short_datagram_fails`, `HttpProxy.C82_closed_partial`, `HttpProxy.C82_first_fails`, `HttpProxy.C82_reached`, `HttpProxy.C82_target_partial`, `HttpProxy.C82_target_fails`, `HttpProxy.C83_first_partial`, `HttpProxy.C84_number_fails`, `Udp.C55_replies_lost`, `Udp.C55_replies`, `Udp.C55_replies_kept`, `Udp.C85_stranger_fails`, `Udp.C85_partial`, `Udp.C86_reply_partial`, `Udp.C86_cut_fails`, `Udp.C88_entries_fails`, `Control.C56_abort_fails`, `Log.C57_length_partial`, `Files.C97_joined`, `Health.C102_may_check`, `Health.C102_loop`, `Health.C102_turn`, `TransHttp.C106_first_partial`, `TransHttp.C106_same_host_partial`, `TransHttp.C106_service_partial`, `TransHttp.C106_later_requests_fails`, `TransHttp.C106_unknown_first_fails`, `TransHttp.C106_other_service_fails`, `TransHttp.C106_no_host_fails`, `Listen.C107_listeners`, `Listen.C107_kind_exact`, `Listen.C107_kind_partial`, `Listen.C107_starts`, `Listen.C108_port_partial`, `Listen.C108_address_partial`, `Listen.C108_other_address_fails`, `Listen.C109_same_name_partial`, `Listen.C111_own_block`, `Listen.C111_ports_partial`, `Listen.C111_same_port_fails`, `Listen.C112_order_partial`, `Listen.C112_one_at_a_time_fails`, `Listen.C113_connect_exact`, `Listen.C113_map_partial`, `Listen.C113_key_fails`, `Listen.C113_misfit_fails`, `Core.C115_full_fails`, `Core.C115_ten_partial`, `Core.C115_proxy_partial`, `Core.C115_stop`, `Core.C115_none_lost`, `Core.C115_free_partial`, `Core.C115_other_partial`, `Core.C115_blocked_fails`, `Core.C115_silent_client_fails`, `Target.C117_only`, `Target.C117_host`, `Target.C117_down_fails`, `Target.C117_empty_fails`, `Target.C117_tls_name_fails`, `Target.C119_dropped_fails`, `Target.C120_order`, `Target.C120_no_loss`, `Target.C120_ends`, `Texts.C133_ignored_fails`, `Texts.C133_print_fails`, `Texts.C135_unknown`, `Texts.C135_meaning`, `Texts.C135_print_partial`, `Texts.C135_print_fails`, `Rewrite.C137_memory`, `Answer.C138_client`, `Answer.C138_upstream`, `Answer.C138_one_block_partial`, `Answer.C138_passed_partial`, `Answer.C138_first_fails`, `Answer.C138_idle_fails`, `Answer.C138_upstream_fails`, `Builder.C140_settings`, `Builder.C140_mappings`, `Builder.C140_protocols`, `Builder.C140_udp_fails`, `Builder.C140_missing_fails`, `Builder.C141_opened_partial`, `Listen.C145_proxy_listeners_partial`, `Listen.C145_https_partial`, `Listen.C145_refused`, `Listen.C145_tunnel_partial`, `Listen.C145_no_bind_fails`, `Listen.C145_https_fails`, `Listen.C145_exit_fails`, `Listen.C145_same_address_fails`, `Files.C146_page`, `Turns.C151_accept_fails`, `Control.C151_in_turn_partial`, `Relay.C154_pieces_partial`, `Relay.C154_reads_on_fails`, `Relay.C154_takes_on_fails`, `Socks.Assoc.C159_stays`, `Socks.Assoc.C160_stranger_fails`, `Socks.Assoc.C161_early_fails`, `Socks.Assoc.C161_large_fails`, `Socks.Assoc.C161_reply_partial`, `Limit.C174_decided_partial`, `Limit.C174_period_fails`, `Config.C176_yaml_fails`, `Socks.Assoc.C178_told_partial`, `Socks.Assoc.C178_v6_fails`, `Socks.Assoc.C179_sent_partial`, `Socks.Assoc.C179_v6_fails`, `Turns.C184_order`, `Turns.C184_fault_fails`, `PidFile.C209_two_fails`, `Failover.C213_retry_fails`, `Failover.C213_hang_fails`, `Failover.C213_default_fails`, `Udp.C216_out_fails`, `Prot.C218_sent`

propext, Classical.choice, Quot.sound (436 theorems):
`Prot.C01_frame_roundtrip`, `Prot.frame_roundtrip_any_id`, `Prot.C02_segmentation_independent`, `Prot.C04_id_preserved_iff`, `Prot.C04_ids_confused_iff`, `Prot.C07_encode_fails_iff`, `Prot.C07_close_fails`, `Prot.C07_token_fails`, `Prot.C08_content_is_local_partial`, `Prot.C08_data_is_local`, `Prot.C08_leak_fails`, `Prot.C09_panic_iff_partial`, `Prot.C09_no_panic_fails`, `Tunnel.C05_distinct`, `Tunnel.C05_disjoint`, `Tunnel.C05_bound_sharp`, `Tunnel.C06_distinct_on_wire_partial`, `Tunnel.C06_distinct_on_wire_fails`, `Tunnel.C06_reserved_id_fails`, `Tunnel.C10_nothing_before_login`, `Tunnel.C10_no_token_no_service`, `Tunnel.C11_refused`, `Tunnel.C11_ends_when_flushed`, `Tunnel.C12_server_routing`, `Tunnel.C12_client_routing`, `Tunnel.C12_server_own_id`, `Tunnel.C12_client_own_id`, `Tunnel.C13_server_looks_at_everything`, `Tunnel.C13_server_lossless`, `Tunnel.C14_client_looks_at_everything`, `Tunnel.C14_client_lossless_partial`, `Tunnel.C14_client_lossless_fails`, `Tunnel.C15_server_order`, `Tunnel.C15_client_order`, `Tunnel.C15_server_progress`, `Tunnel.C15_client_progress`, `Tunnel.C16_introduction_first`, `Tunnel.C17_open_answered_partial`, `Tunnel.C17_no_address_fails`, `Tunnel.C17_stuck_fails`, `Tunnel.C18_server_end_closes_all_partial`, `Tunnel.C18_client_end_closes_all_partial`, `Tunnel.C18_loss_noticed`, `Tunnel.C18_server_close_handed_over`, `Tunnel.C18_client_close_handed_over`, `Tunnel.C18_blocked_fails`, `Config.C24_size_roundtrip`, `Config.C25_plain_number`, `Config.C25_unit_partial`, `Config.C25_overflow_fails`, `Config.C26_print_fails`, `Config.C26_duration_roundtrip_partial`, `Config.C26_duration_roundtrip_fails`, `Config.C27_meaning_partial`, `Config.C27_millis_fails`, `Config.C27_too_big_fails`, `Config.C28_membership_partial`, `Config.C28_length_zero_fails`, `Config.C29_list_roundtrip`, `Config.C29_too_long_rejected`, `Config.C31_list`, `Config.C31_range_partial`, `Config.C31_range_end_fails`, `Config.C31_no_own_address_fails`, `Config.C31_dashes_fails`, `Config.C32_roundtrip_partial`, `Config.C32_parse_meaning`, `Config.C32_empty_fails`, `Config.C61_size_suffix_fails`, `Helper.C33_wildcards`, `Helper.C36_effects`, `Helper.C37_own_file_partial`, `Helper.C37_create_remove`, `Limit.C38_exact`, `Limit.C38_room`, `Limit.C38_window_partial`, `Limit.C38_full_fails`, `Limit.C39_independent`, `Health.C41_down`, `Health.C41_active_fails`, `Health.C43_usable_partial`, `Health.C44_share_partial`, `Health.C44_first_fails`, `Health.C44_last_fails`, `Limit.C64_history_partial`, `Limit.C64_reload_fails`, `Limit.C64_zones_partial`, `Reverse.C45_handled`, `Reverse.C45_location`, `Reverse.C46_turned_away`, `Reverse.C46_limit_refuses`, `Reverse.C46_handler_guarded`, `Reverse.C46_answer`, `Reverse.C46_try_status_fails`, `Reverse.C47_terminates`, `Reverse.C47_once`, `Reverse.C48_root_server`, `Reverse.C65_once_partial`, `Reverse.C65_twice_fails`, `Reverse.C67_chosen_partial`, `Reverse.C67_only_matching_partial`, `Reverse.C67_websocket_fails`, `Reverse.C68_kept_partial`, `Reverse.C69_same_name_fails`, `Files.C49_prefix_fails`, `Files.C50_named_partial`, `Files.C50_named_fails`, `Files.C50_answer`, `Files.C50_other_unit`, `Files.C50_answer_partial`, `Files.C50_whole`, `Files.C50_closed_partial`, `Files.C50_open_fails`, `Files.C50_suffix_fails`, `Files.C50_beyond_fails`, `Files.C70_index_fails`, `Files.C71_epoch_fails`, `Files.C71_not_modified_partial`, `Files.C71_range_fails`, `Files.C72_page_fails`, `Socks.C52_refused`, `Socks.C52_credentials_needed_partial`, `HttpProxy.C53_credentials_needed_partial`, `HttpProxy.C53_credentials_enough_partial`, `HttpProxy.C53_colon_fails`, `Socks.C80_handshake_exact_partial`, `HttpProxy.C81_header_fails`, `HttpProxy.C83_credentials_leak_fails`, `HttpProxy.C84_text_partial`, `HttpProxy.C84_roundtrip_partial`, `HttpProxy.C84_misspelt_fails`, `Udp.C55_kept`, `Udp.C55_no_standstill`, `Udp.C55_isolated`, `Udp.C55_order_partial`, `Udp.C55_order_fails`, `Udp.C85_notice_fails`, `Udp.C87_blackhole_fails`, `Control.C56_exit_partial`, `Control.C56_reload_partial`, `Control.C56_failed_start_fails`, `Control.C89_exit_partial`, `Control.C89_panic_fails`, `Control.C89_port_fails`, `Control.C90_replies_fails`, `Log.C57_width_partial`, `Log.C57_pattern_partial`, `Log.C57_width_fails`, `Log.C58_parse`, `Log.C58_print`, `Log.C58_terminates`, `HealthList.C59_health_list_partial`, `HealthList.C59_health_list_no_location_partial`, `HealthList.C59_location_fails`, `Log.C91_format_partial`, `Log.C91_format_fails`, `Tunnel.C92_server_announces`, `Tunnel.C92_client_announces`, `Select.C92_announced_first_partial`, `Select.C92_data_before_create_fails`, `Tunnel.C93_server_bounded`, `Tunnel.C93_client_bounded`, `Select.C94_written_when_quiet_partial`, `Select.C94_reading_starves_writing_fails`, `Redial.C95_history_partial`, `Tunnel.C95_in_order_at_most_once_partial`, `Tunnel.C95_stale_message_fails`, `Reverse.C96_try_list`, `Files.C97_file`, `Files.C97_index`, `Files.C97_directory`, `Files.C98_encoding_partial`, `Files.C98_refused_encoding_fails`, `Control.C99_old_ends`, `Control.C99_new_configuration`, `Control.C100_stop`, `Log.C101_pattern`, `Health.C103_recorded`, `World.C104_dropped_fails`, `World.C104_early_fails`, `World.C104_up_partial`, `World.C104_up_exact_partial`, `World.C104_up_all_partial`, `World.C104_down`, `World.C104_down_all`, `World.C104_overtaken_fails`, `World.C104_slow_service_fails`, `World.C105_mapping_chosen`, `World.C105_mode_partial`, `World.C105_same_name_fails`, `Listen.C107_plain_wins_fails`, `Listen.C109_sni_fails`, `Listen.C110_shown`, `Listen.C110_served_partial`, `Listen.C110_domain_fails`, `Listen.C113_accept_exact`, `Listen.C113_encrypted_partial`, `Listen.C113_root_panics_fails`, `Core.C114_only_partial`, `Core.C114_first_partial`, `Core.C114_first_only_fails`, `Core.C114_stranger_fails`, `Core.C114_silent_fails`, `World.C116_dropped_fails`, `World.C116_early_fails`, `World.C116_down`, `World.C116_down_only`, `World.C116_up_partial`, `World.C116_up_only`, `World.C116_overtaken_fails`, `World.C116_slow_service_fails`, `Target.C117_group_partial`, `Target.C118_group_partial`, `Target.C118_host`, `Target.C118_unresolved`, `Target.C118_port_fails`, `Target.C119_group_partial`, `Cli.C121_options_partial`, `Cli.C121_run_fails`, `Cli.C122_said`, `Cli.C122_complete_partial`, `Cli.C122_status_fails`, `Cli.C122_unchecked_fails`, `Cli.C122_extension_fails`, `Cli.C123_closed_fails`, `Cli.C123_reverse_partial`, `Cli.C124_mode_partial`, `Cli.C124_refused`, `Cli.C124_case_fails`, `Cli.C125_file_partial`, `Cli.C125_ignored_fails`, `Cli.C126_error_fails`, `Cli.C126_stop_fails`, `Chain.C127_waited_fails`, `Chain.C127_dropped_fails`, `Chain.C127_early_fails`, `Chain.C127_up_partial`, `Chain.C127_up_exact_partial`, `Chain.C127_up_all_partial`, `Chain.C127_down_partial`, `Chain.C127_down_exact_partial`, `Chain.C127_down_all_partial`, `Chain.C127_overtaken_fails`, `Chain.C127_slow_user_fails`, `Chain.C127_repeated_fails`, `Chain.C128_early_fails`, `Chain.C128_up_partial`, `Chain.C128_up_only_partial`, `Chain.C128_never_told_fails`, `Chain.C128_left_open_fails`, `Chain.C128_overtaken_fails`, `Texts.C131_meaning`, `Texts.C131_unknown`, `Texts.C131_roundtrip`, `Texts.C131_blanks_fails`, `Texts.C132_meaning`, `Texts.C132_print_partial`, `Texts.C132_print_fails`, `Texts.C132_blank_fails`, `Texts.C133_meaning`, `Texts.C134_meaning`, `Texts.C134_print_partial`, `Texts.C134_error`, `Texts.C134_format_fails`, `Texts.C134_level_fails`, `Access.C129_one_line_partial`, `Access.C129_only`, `Access.C129_kept_fails`, `Access.C129_refused_fails`, `Access.C129_answer_fails`, `Access.C129_many_fails`, `Access.C130_main_partial`, `Access.C130_main_fails`, `Access.C130_opens`, `Access.C130_record`, `Access.C130_file_partial`, `Access.C130_command_line_partial`, `Access.C130_other_file_fails`, `Access.C130_unopened_fails`, `Access.C130_level_fails`, `Access.C130_unknown_fails`, `Access.C130_format_fails`, `Access.C130_default_levels_fails`, `Access.C130_command_line_fails`, `Rewrite.C136_plain`, `Rewrite.C136_rewrite`, `Rewrite.C136_kept`, `Rewrite.C136_bounded`, `Rewrite.C136_two_words_fails`, `Rewrite.C136_quoted_fails`, `Rewrite.C136_invalid_fails`, `Rewrite.C137_static_partial`, `Rewrite.C137_panic_fails`, `Answer.C138_sni_partial`, `Answer.C139_answered`, `Answer.C139_failure_partial`, `Answer.C139_nothing`, `Answer.C139_timeout_fails`, `Builder.C141_udp_partial`, `Tunnel.C142_server_one_per_id_partial`, `Tunnel.C142_client_one_per_id_partial`, `Tunnel.C142_server_fails`, `Tunnel.C142_client_fails`, `Tunnel.C142_unbounded_fails`, `Tunnel.C143_server_input_partial`, `Tunnel.C143_client_input_partial`, `Tunnel.C143_refused_fails`, `Tunnel.C143_server_output_fails`, `Tunnel.C143_client_output_fails`, `Select.C144_server_goes_on_partial`, `Select.C144_server_fails`, `Select.C144_server_idle_fails`, `Select.C144_client_fails`, `Select.C144_client_silent_fails`, `Listen.C145_sections`, `Files.C146_label`, `Files.C147_link_partial`, `Files.C147_characters_fails`, `Files.C147_percent_fails`, `Files.C148_tags_partial`, `Files.C148_markup_fails`, `Files.C149_answer`, `Files.C149_status_partial`, `Files.C149_page_fails`, `Control.C150_served_partial`, `Control.C150_waiting_partial`, `Control.C150_reload_fails`, `Control.C150_failed_start_fails`, `Control.C150_exit_fails`, `Control.C151_unblocked_partial`, `Control.C151_stop_twice_fails`, `Control.C152_begins_partial`, `Control.C152_hanging_fails`, `Ring.C153_ring_bytes_partial`, `Tunnel.C153_server_partial`, `Tunnel.C153_client`, `Tunnel.C153_waits_for_full`, `Tunnel.C153_waiting_fails`, `Ring.C153_ring_fails`, `Log.C155_no_default_partial`, `Log.C155_default_fails`, `Config.C156_meaning_partial`, `Config.C156_rejects`, `Config.C156_request_removal_fails`, `Config.C156_wrong_fails`, `World.C157_down`, `World.C158_up_partial`, `Socks.Assoc.C159_forward`, `Socks.Assoc.C159_back`, `Socks.Assoc.C159_serves`, `Socks.Assoc.C159_ends`, `Socks.Assoc.C160_alone_partial`, `Files.C162_files_partial`, `Files.C162_pages_fails`, `Files.C163_again`, `Files.C164_label_partial`, `Files.C164_label_fails`, `Files.C165_type_partial`, `Files.C165_rar_fails`, `Files.C165_capital_fails`, `Files.C166_head_partial`, `Files.C166_range_fails`, `Files.C167_robots`, `Files.C167_only`, `Files.C167_sent`, `Files.C168_get_partial`, `Files.C168_robots_fails`, `Files.C168_head_fails`, `World.C169_fair`, `World.C169_down`, `World.C170_fair_partial`, `World.C170_up_partial`, `World.C170_lost_fails`, `Reverse.C171_kept_fails`, `Reverse.C171_body_partial`, `Reverse.C171_second_fails`, `Reverse.C172_host_partial`, `Reverse.C172_same`, `Reverse.C172_host_fails`, `Log.C173_mistakes_partial`, `Log.C173_unclosed_fails`, `Limit.C174_burst_fails`, `Limit.C174_wrap_fails`, `Log.C175_process_partial`, `Log.C175_request_partial`, `Log.C175_status_fails`, `Log.C175_nothing_fails`, `Log.C175_level_fails`, `Config.C176_toml_partial`, `Config.C176_negative_fails`, `World.C177_fair`, `World.C177_served`, `World.C177_arrived`, `World.C180_down`, `World.C180_up_partial`, `Contact.C181_contact_partial`, `Contact.C181_contact_fails`, `Redial.C181_timely`, `Redial.C181_connects`, `Redial.C181_introduces`, `Redial.C181_loses_partial`, `Redial.C181_crash_fails`, `Redial.C181_stuck_fails`, `Pass.C182_same_partial`, `Pass.C182_rules_fails`, `Pass.C182_host_fails`, `Pass.C183_rules`, `Pass.C183_served`, `Turns.C184_one_partial`, `Turns.C184_many_partial`, `Turns.C184_busy_fails`, `Pass.C208_answer`, `PidFile.C209_stop_partial`, `PidFile.C209_again_fails`, `PidFile.C209_crash_fails`, `Tunnel.C210_server_partial`, `Tunnel.C210_server_write_fails`, `Tunnel.C210_client_unnoticed_fails`, `Reverse.C211_unlimited_partial`, `Reverse.C211_counted_fails`, `Reverse.C211_shut_out_fails`, `Reverse.C212_kept`, `Failover.C213_lost_partial`, `Health.C214_exact_partial`, `Health.C214_others_fails`, `Health.C215_only_partial`, `Health.C215_kept_fails`, `Udp.C216_channels_partial`, `Udp.C216_in_fails`, `Files.C217_if_range`, `Files.C217_whole`, `Prot.C218_read`, `Chain.C219_up_partial`, `Chain.C220_waiting`, `Chain.C220_announced`, `Chain.C221_down_partial`
