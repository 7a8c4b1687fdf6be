{"id": "C01", "title": "Tunnel frames survive encode/decode", "statement": "Encoding any tunnel message (open, data, close, port-mapping announcement, login token) that fits the wire limits and decoding the bytes gives back the same message with the same stream id and payload, and leaves exactly the bytes that followed it. Wire limits: low 32-bit half of the stream id below 2^24, payload below 2^24 bytes, strings at most 255 bytes, counts below 2^16. The local address of a mapping is not transmitted.", "quantifier": "every message within the wire limits, every suffix of following bytes", "why_tests_cant": "messages, strings and payloads are unbounded in number; a test samples a few", "anchors": ["src/prot/frame.rs: ProtFrame::parse, ProtFrame::encode, ProtFrameHeader::parse_by_len, ProtFrameHeader::encode", "src/prot/create.rs: ProtCreate", "src/prot/close.rs: ProtClose", "src/prot/data.rs: ProtData", "src/prot/mapping.rs: ProtMapping", "src/prot/token.rs: ProtToken", "src/helper.rs: Helper::decode_frame"]}
{"id": "C02", "title": "Decoding does not depend on how TCP splits the byte stream", "statement": "If a peer sends any sequence of encoded messages and the network delivers the bytes in arbitrary pieces, a reader that appends each piece to its buffer and decodes until no whole message is left obtains exactly the same messages in the same order, each as soon as its last byte has arrived, and an empty buffer at the end.", "quantifier": "every sequence of messages within the wire limits and every way of cutting their concatenation into pieces", "why_tests_cant": "there are exponentially many segmentations of every stream", "anchors": ["src/helper.rs: Helper::decode_frame", "src/streams/center_server.rs: CenterServer::inner_serve", "src/streams/center_client.rs: CenterClient::inner_serve"]}
{"id": "C03", "title": "An incomplete message is left in the buffer; a complete one is consumed exactly", "statement": "On any buffer, decoding either reports 'need more bytes' and leaves the buffer unchanged (precisely when fewer bytes than announced are present), or it consumes exactly 12 plus the announced payload length. It never consumes part of a message.", "quantifier": "every byte buffer", "why_tests_cant": "arbitrary bytes from an untrusted peer", "anchors": ["src/helper.rs: Helper::decode_frame"]}
{"id": "C04", "title": "Stream ids on the wire", "statement": "The stream id a receiver reconstructs from a frame header equals the sender's id exactly when bits 24 to 31 of the id are zero; two ids are confused on the wire exactly when they have the same server id and the same low 24 bits.", "quantifier": "every pair of 64-bit stream ids", "why_tests_cant": "2^128 pairs; collisions only appear after 16 million streams", "anchors": ["src/prot/frame.rs: ProtFrameHeader::encode, ProtFrameHeader::parse_by_len", "src/helper.rs: Helper::calc_sock_map"]}
{"id": "C05", "title": "Stream ids handed out by one endpoint are distinct", "statement": "For every server id, the n-th and m-th ids allocated by an endpoint differ when n≠m and both are below 2^31; ids allocated by the server end are even, by the client end odd, so the two ends never allocate the same id; client ids are never the reserved id 0.", "quantifier": "every server id and every pair of allocation counts", "why_tests_cant": "wrap-around after 2^31 allocations is out of reach of tests", "anchors": ["src/streams/center_server.rs: CenterServer::calc_next_id", "src/streams/center_client.rs: CenterClient::calc_next_id", "src/helper.rs: Helper::calc_sock_map"]}
{"id": "C06", "title": "Concurrently allocated ids stay distinct after crossing the wire", "statement": "The ids an endpoint allocates remain pairwise distinct when seen by the peer, for the whole life of the endpoint.", "quantifier": "every pair of allocations over the life of an endpoint", "why_tests_cant": "needs more than 2^23 streams to fail", "anchors": ["src/streams/center_server.rs: CenterServer::calc_next_id", "src/prot/frame.rs: ProtFrameHeader::encode"]}
{"id": "C07", "title": "A message that cannot be encoded leaves the outgoing stream intact", "statement": "If encoding a message fails because a string is longer than 255 bytes, nothing of it is appended to the outgoing buffer, so the messages queued before and after are still decoded by the peer.", "quantifier": "every message and every content of the outgoing buffer", "why_tests_cant": "the corruption only shows as misframing of unrelated later messages", "anchors": ["src/prot/close.rs: ProtClose::encode", "src/prot/token.rs: ProtToken::encode", "src/prot/mapping.rs: ProtMapping::encode", "src/prot/mod.rs: write_short_string"]}
{"id": "C08", "title": "The content of a message is decided by its own bytes only", "statement": "Decoding a message yields a result that does not depend on the bytes that follow the message in the buffer.", "quantifier": "every buffer holding one complete message and every continuation", "why_tests_cant": "quantifies over malformed input and all continuations", "anchors": ["src/helper.rs: Helper::decode_frame", "src/prot/frame.rs: ProtFrame::parse"]}
{"id": "C09", "title": "Decoding untrusted bytes never crashes the process task", "statement": "Decoding any buffer either asks for more bytes, returns a message, or returns an error; it never panics.", "quantifier": "every byte buffer", "why_tests_cant": "arbitrary bytes from the network", "anchors": ["src/prot/frame.rs: ProtFrame::parse", "src/prot/create.rs: ProtCreate::parse", "src/helper.rs: Helper::decode_frame"]}
{"id": "C10", "title": "Nothing is served over a tunnel before login", "statement": "When a server has a username or password configured, then in every history of a tunnel connection no stream is opened, no data delivered and no port mapping accepted because of the peer's bytes unless an earlier message in that connection was a login token matching every configured credential.", "quantifier": "every server configuration, every byte sequence from the peer in every segmentation, interleaved with every local activity", "why_tests_cant": "security property over all histories of an adversarial peer", "anchors": ["src/streams/center_server.rs: CenterServer::inner_serve", "src/prot/token.rs: ProtToken::is_check_succ"]}
{"id": "C11", "title": "A refused peer gets a close notice and is then ignored", "statement": "The first message that arrives before login and is not a matching token makes the server queue exactly one close message for id 0; from then on no further bytes of the peer have any effect, and the connection ends once the outgoing queue is flushed.", "quantifier": "every history", "why_tests_cant": "requires reasoning about all continuations after the refusal", "anchors": ["src/streams/center_server.rs: CenterServer::inner_serve"]}
{"id": "C12", "title": "Tunnel data reaches only the stream it is addressed to", "statement": "At either end of a tunnel, every data or close message from the peer is handed only to the local stream most recently registered under the message's id; messages for unknown ids have no effect. No stream ever receives a message carrying another id.", "quantifier": "every history of both ends", "why_tests_cant": "cross-talk depends on interleavings of opens, data and closes", "anchors": ["src/streams/center_server.rs: CenterServer::inner_serve", "src/streams/center_client.rs: CenterClient::inner_serve"]}
{"id": "C13", "title": "Server end delivers every data message of a stream in order without loss", "statement": "On the server end, the sequence of data payloads handed to a registered stream equals the sequence of data messages with that id that the peer sent after the registration, in order, none dropped and none duplicated (while the stream keeps receiving).", "quantifier": "every message sequence and segmentation", "why_tests_cant": "loss depends on timing and queue occupancy", "anchors": ["src/streams/center_server.rs: CenterServer::inner_serve"]}
{"id": "C14", "title": "Client end delivers every data message of a stream in order without loss", "statement": "On the client end, the sequence of data payloads handed to a stream equals the sequence the peer sent for it, in order, none dropped, whatever the speed of the local consumer.", "quantifier": "every message sequence and every consumer schedule", "why_tests_cant": "loss needs more than 10 messages in flight at the wrong moment", "anchors": ["src/streams/center_client.rs: CenterClient::inner_serve"]}
{"id": "C15", "title": "Outgoing messages leave the tunnel in submission order", "statement": "The bytes written to the tunnel connection are at every moment a prefix of the concatenated encodings of the messages accepted so far, in acceptance order, regardless of how many bytes each write accepts.", "quantifier": "every sequence of submissions and partial writes", "why_tests_cant": "partial writes can split any frame at any byte", "anchors": ["src/streams/center_server.rs: CenterServer::inner_serve", "src/streams/center_client.rs: CenterClient::inner_serve"]}
{"id": "C16", "title": "The client introduces itself before anything else", "statement": "The bytes a client writes on a new tunnel connection begin with its login token (when both username and password are configured), followed by its port mappings (when it has any), before any stream traffic, on every reconnect.", "quantifier": "every configuration and every history of the connection", "why_tests_cant": "ordering over all interleavings with concurrent streams", "anchors": ["src/streams/center_client.rs: CenterClient::inner_serve, CenterClient::serve"]}
{"id": "C17", "title": "An open request is answered by a stream or a close", "statement": "When the server asks a client to open a stream, the client uses the last configured mapping whose domain or name equals the requested one; if there is none, or if the mapping has no local address, the client answers with a close for that id.", "quantifier": "every list of mappings and every requested name", "why_tests_cant": "mapping lists and names are unbounded", "anchors": ["src/streams/center_client.rs: CenterClient::inner_serve"]}
{"id": "C18", "title": "Loss of the tunnel closes every stream", "statement": "When the tunnel connection ends, every stream registered at that end is told to close.", "quantifier": "every history, every set of registered streams, every occupancy of their queues", "why_tests_cant": "depends on queue occupancy at the moment of disconnection", "anchors": ["src/streams/center_server.rs: CenterServer::inner_serve", "src/streams/center_client.rs: CenterClient::inner_serve"]}
{"id": "C19", "title": "Relaying a local connection preserves the byte stream", "statement": "While a local TCP connection is relayed through the tunnel, the data messages sent for it concatenate to a prefix of the bytes read from the connection, and the bytes written to the connection are a prefix of the concatenated data messages received for it; all messages carry the stream's own id.", "quantifier": "every schedule of reads, writes, receives and sends, every read size and partial write", "why_tests_cant": "interleavings are unbounded", "anchors": ["src/streams/trans_stream.rs: TransStream::inner_copy_wait"]}
{"id": "C20", "title": "A relayed connection ends with exactly one close", "statement": "However the relay of a local connection ends, exactly one close message for its id is sent after all its data messages, and no message follows it.", "quantifier": "every schedule and every way of ending", "why_tests_cant": "all error paths and schedules", "anchors": ["src/streams/trans_stream.rs: TransStream::copy_wait"]}
{"id": "C21", "title": "Half-closing a relayed connection loses no data", "statement": "If the local connection reaches end of input (or the peer closes the stream) then all bytes read (received) before that have been sent (written) when the relay ends.", "quantifier": "every schedule", "why_tests_cant": "loss happens only in particular interleavings", "anchors": ["src/streams/trans_stream.rs: TransStream::inner_copy_wait"]}
{"id": "C22", "title": "Reading a tunnelled stream yields the peer's bytes in order", "statement": "Successive reads of a tunnelled stream return, concatenated, a prefix of the bytes of the data messages received for it, whatever the read buffer sizes and arrival times; end of input is reported only after all received bytes have been returned.", "quantifier": "every sequence of arrivals and read calls with every buffer size", "why_tests_cant": "depends on the interleaving of reads with arrivals", "anchors": ["src/streams/virtual_stream.rs: VirtualStream::poll_read"]}
{"id": "C23", "title": "Writing a tunnelled stream sends each accepted byte once", "statement": "The data messages produced by a tunnelled stream concatenate to exactly the bytes its writer was told were accepted, in order, even when the queue to the peer is temporarily full and writes have to be retried.", "quantifier": "every sequence of writes and every pattern of back-pressure", "why_tests_cant": "duplication needs back-pressure at the right moment", "anchors": ["src/streams/virtual_stream.rs: VirtualStream::poll_write, VirtualStream::poll_flush"]}
{"id": "C24", "title": "Size settings survive print and parse", "statement": "Printing any 64-bit size setting and parsing the text gives the same size.", "quantifier": "every 64-bit value", "why_tests_cant": "2^64 values", "anchors": ["src/config/size.rs: ConfigSize"]}
{"id": "C25", "title": "Size texts mean what they say", "statement": "A size text made of decimal digits followed by one unit letter k, m, g, t or p in either case denotes the number times 1024 to the power 1 to 5; digits alone denote the number; when the product does not fit 64 bits the setting is rejected rather than silently changed.", "quantifier": "every digit string and unit", "why_tests_cant": "unbounded texts", "anchors": ["src/config/size.rs: ConfigSize::from_str"]}
{"id": "C26", "title": "Duration settings survive print and parse", "statement": "Printing any duration setting with millisecond resolution and parsing the text gives the same duration.", "quantifier": "every duration of whole milliseconds", "why_tests_cant": "unbounded", "anchors": ["src/config/duration.rs: ConfigDuration"]}
{"id": "C27", "title": "Duration texts mean what they say", "statement": "A duration text of decimal digits followed by ms, s, min or h (or nothing) denotes that many milliseconds, seconds, minutes or hours (seconds).", "quantifier": "every digit string and unit", "why_tests_cant": "unbounded texts", "anchors": ["src/config/duration.rs: ConfigDuration::from_str"]}
{"id": "C28", "title": "IP allow/deny lists match by network prefix", "statement": "An address is in a list exactly when some entry covers it: an entry ip/len covers the addresses of the same family that agree with ip in the first len bits, and an entry without length covers only itself.", "quantifier": "every list, every address of both families", "why_tests_cant": "2^32 and 2^128 addresses", "anchors": ["src/config/ip_sets.rs: IpGate::contains, IpSets::contains"]}
{"id": "C29", "title": "IP list entries survive print and parse", "statement": "Printing any address list and parsing the text gives a list that matches the same addresses; an entry with a prefix longer than the address is rejected.", "quantifier": "every list", "why_tests_cant": "unbounded lists", "anchors": ["src/config/ip_sets.rs"]}
{"id": "C30", "title": "Header-rewrite rules survive print and parse", "statement": "Printing a header rule (request/response side, add, remove, default, replace, name, value) and parsing the text gives the same rule.", "quantifier": "every rule", "why_tests_cant": "unbounded names and values", "anchors": ["src/config/header.rs: ConfigHeader"]}
{"id": "C31", "title": "Listen address ranges expand to every port in the range", "statement": "A listen text 'addr:a-addr:b' or a list of addresses expands to exactly the named sockets: one per port from a to b inclusive for ranges, one per entry for lists; membership of a port is decided accordingly.", "quantifier": "every pair of ports and every list", "why_tests_cant": "unbounded", "anchors": ["src/config/wrap.rs: WrapVecAddr"]}
{"id": "C32", "title": "Protocol flags survive print and parse", "statement": "Printing any set of the proxy protocols http, https, socks5 and parsing the text gives the same set; parsing ignores order and repetition.", "quantifier": "every set and every word list", "why_tests_cant": "unbounded word lists", "anchors": ["src/flag.rs: Flag"]}
{"id": "C33", "title": "Wildcard path rules match exactly their language", "statement": "For every pattern containing at least one '*', a path matches exactly when it can be obtained from the pattern by replacing each '*' by some text.", "quantifier": "every path and every pattern", "why_tests_cant": "the matcher is greedy; completeness over all strings is not testable", "anchors": ["src/helper.rs: Helper::is_match"]}
{"id": "C34", "title": "A rule without wildcard matches only the exact path", "statement": "A path rule without '*' matches a path only when they are equal (apart from its interpretation as a regular expression).", "quantifier": "every path and pattern", "why_tests_cant": "unbounded strings", "anchors": ["src/helper.rs: Helper::is_match", "src/reverse/matcher.rs: Matcher::is_match_rule"]}
{"id": "C35", "title": "Quoted arguments are split faithfully", "statement": "Splitting a configuration text built by joining words with spaces, each word plain (non-empty, no whitespace, no quotes) or wrapped in quotes it does not contain, gives back exactly the words.", "quantifier": "every list of words", "why_tests_cant": "unbounded", "anchors": ["src/helper.rs: Helper::split_by_whitespace"]}
{"id": "C36", "title": "Header rewriting touches only the named headers", "statement": "After rewriting a request (response), every header not named by an applicable rule is unchanged and in the same order; rules for the other side have no effect; after add the value is present, after remove the header is absent, default leaves an existing header alone, and replace leaves exactly the new value.", "quantifier": "every header list and every rule list", "why_tests_cant": "unbounded lists", "anchors": ["src/helper.rs: Helper::rewrite_request, Helper::rewrite_response, Helper::rewrite_header"]}
{"id": "C37", "title": "A process removes only its own pid file", "statement": "Whatever pid files other processes write, a process removing its pid file deletes it only if the content is its own pid; creating then removing restores absence.", "quantifier": "every sequence of creates/removes by any processes", "why_tests_cant": "interleavings of processes", "anchors": ["src/helper.rs: Helper::try_create_pidfile, Helper::try_remove_pidfile"]}
{"id": "C38", "title": "Request limit is enforced per client", "statement": "In every window of requests from one client in which consecutive requests are no further apart than the configured period, at most 'nums' are passed at once, at most 'burst' more are delayed by the period, and all others are refused.", "quantifier": "every history of requests from any clients at any times", "why_tests_cant": "unbounded histories and timings", "anchors": ["src/data/limit_req_data.rs: LimitReqData::inner_recv_new_req"]}
{"id": "C39", "title": "Clients do not affect each other's request budget", "statement": "As long as the client table is not full and no cleanup happens, the decisions for one client are the same whatever other clients do.", "quantifier": "every interleaving of requests of other clients", "why_tests_cant": "unbounded interleavings", "anchors": ["src/data/limit_req_data.rs: LimitReqData"]}
{"id": "C40", "title": "The client table of a limit zone is bounded", "statement": "The number of clients remembered by a zone never exceeds its configured limit; once full, requests are refused rather than stored.", "quantifier": "every history", "why_tests_cant": "unbounded histories", "anchors": ["src/data/limit_req_data.rs: LimitReqData::inner_recv_new_req, try_remove_unuse"]}
{"id": "C41", "title": "A server is taken out after repeated failures and put back after repeated successes", "statement": "A server is regarded as down exactly when, counting from the last long silence, it has had max_fails consecutive failures and since then fewer than min_rises consecutive successes; a silence longer than the failure timeout makes it usable again.", "quantifier": "every history of successes, failures and times", "why_tests_cant": "unbounded histories", "anchors": ["src/check/health.rs: HealthCheck"]}
{"id": "C42", "title": "Connecting skips servers known to be down", "statement": "When connecting to a list of addresses, addresses regarded as down are not tried, the first successful one is used, every tried address has its outcome recorded, and an error is returned when none works.", "quantifier": "every address list and outcome assignment", "why_tests_cant": "unbounded lists and outcomes", "anchors": ["src/check/health.rs: HealthCheck::connect"]}
{"id": "C43", "title": "Load balancing picks only usable servers", "statement": "Picking a server of an upstream group returns a configured server, never one that is down while another is usable, and returns nothing only for an empty group.", "quantifier": "every group, health state and random draw", "why_tests_cant": "random and unbounded", "anchors": ["src/reverse/upstream.rs: UpstreamConfig::get_server_addr"]}
{"id": "C44", "title": "Load balancing follows the weights", "statement": "Over all equally likely random draws, each usable server is chosen in proportion to its weight; a server of weight 0 is never chosen.", "quantifier": "every group and every weight assignment", "why_tests_cant": "statistical tests cannot see an off-by-one share", "anchors": ["src/reverse/upstream.rs: UpstreamConfig::get_server_addr, calc_sum_weight"]}
{"id": "C45", "title": "Requests go to the first matching location of the selected server", "statement": "A request is handled by the first server block whose name equals the host (any if the host is empty, else the last block), and within it by the first location all of whose conditions (path, method, scheme, host, client ip) hold; no condition is ignored.", "quantifier": "every configuration and request", "why_tests_cant": "unbounded configurations", "anchors": ["src/reverse/http.rs: HttpConfig::inner_operate_by_http, deal_match_location", "src/reverse/matcher.rs: Matcher::is_match_rule", "src/reverse/reverse_helper.rs: ReverseHelper::get_location_by_req"]}
{"id": "C46", "title": "Refused addresses never reach a location's handler", "statement": "A request from an address outside the allow list or inside the deny list of the matching location gets a 503 and never reaches the location's handler, also when it arrives there through try_paths; likewise for requests refused by the rate limit.", "quantifier": "every configuration, request and try_paths chain", "why_tests_cant": "recursion through try_paths is unbounded", "anchors": ["src/reverse/http.rs: HttpConfig::deal_match_location"]}
{"id": "C47", "title": "try_paths always terminates", "statement": "Handling a request through try_paths, including locations whose try_paths lead back to themselves, ends after finitely many steps with a response, and visits each location's try list at most once.", "quantifier": "every configuration", "why_tests_cant": "cycles in arbitrary configurations", "anchors": ["src/reverse/http.rs: HttpConfig::deal_match_location"]}
{"id": "C48", "title": "Settings of inner blocks override outer blocks", "statement": "For every shared setting, the effective value of a location is its own if given, else the server's, else the http block's.", "quantifier": "every setting and configuration", "why_tests_cant": "many settings times unbounded configurations", "anchors": ["src/reverse/common.rs: CommonConfig::copy_from_parent", "src/reverse/server.rs: ServerConfig::copy_to_child", "src/reverse/http.rs: HttpConfig::copy_to_child"]}
{"id": "C49", "title": "The file server never leaves its root directory", "statement": "For every request path, the file or directory opened lies in the configured root directory.", "quantifier": "every request path and root", "why_tests_cant": "adversarial paths", "anchors": ["src/plugins/file_server.rs: FileServer::deal_request"]}
{"id": "C50", "title": "Byte ranges served are within the file", "statement": "For every Range header the server either refuses it or serves exactly the bytes the header denotes: 'a-b' bytes a to b, 'a-' from a to the end, '-n' the last n bytes, never beyond the end of the file.", "quantifier": "every header text and file length", "why_tests_cant": "unbounded texts", "anchors": ["src/plugins/file_server.rs: FileServer::calc_bytes_range"]}
{"id": "C51", "title": "SOCKS5 addresses survive encode/decode", "statement": "Encoding any IPv4 or IPv6 socket address in SOCKS5 form and reading it back gives the same address and leaves the following bytes, in whatever pieces they arrive.", "quantifier": "every address, port, continuation and segmentation", "why_tests_cant": "2^144 addresses times all segmentations", "anchors": ["src/proxy/socks5.rs: ProxySocks5::encode_socket_addr, ProxySocks5::read_addr, read_len"]}
{"id": "C52", "title": "SOCKS5 credentials are enforced", "statement": "With a username and password configured, a SOCKS5 client is connected to a target only if it offered the password method and sent exactly the configured username and password; with none configured no credentials are asked for.", "quantifier": "every byte sequence from the client in every segmentation", "why_tests_cant": "adversarial input", "anchors": ["src/proxy/socks5.rs: ProxySocks5::process, read_head_len, read_verify"]}
{"id": "C53", "title": "HTTP proxy credentials are enforced", "statement": "With a username and password configured, an HTTP proxy request is forwarded only if the connection presented a Basic credential that decodes to exactly username:password; otherwise the client gets 407 and no connection to the target is made.", "quantifier": "every sequence of requests on a connection", "why_tests_cant": "adversarial input, request sequences", "anchors": ["src/proxy/http.rs: Operate::operate, Operate::check_basic_auth"]}
{"id": "C54", "title": "One port serves HTTP and SOCKS5 according to the enabled protocols", "statement": "A connection is treated as SOCKS5 exactly when its first byte is 5 and socks5 is enabled, as HTTP when http or https is enabled and the first byte is not 5; the bytes already read are not lost; a disabled protocol is never served.", "quantifier": "every flag set and first byte", "why_tests_cant": "all flag combinations and inputs", "anchors": ["src/proxy/server.rs: ProxyServer::deal_proxy", "src/proxy/http.rs: ProxyHttp::process"]}
{"id": "C55", "title": "UDP forwarding keeps datagrams of each client in order and separate", "statement": "Datagrams of one client are forwarded to its upstream socket in arrival order, never to another client's, and replies are sent to the client they belong to, in order.", "quantifier": "every interleaving of clients and back-pressure", "why_tests_cant": "interleavings", "anchors": ["src/reverse/stream.rs: StreamUdp::process_data, poll_sender, poll_write"]}
{"id": "C56", "title": "Reload never leaves the system without a service", "statement": "After a reload request, the old service stops accepting only after the new one is ready; if the new one fails to start the old one keeps running; the control process exits only when no service is left.", "quantifier": "every sequence of reloads, stops, start failures and schedules", "why_tests_cant": "depends on the interleaving of start-up, failure and shutdown", "anchors": ["src/control/server.rs: ControlServer::inner_start_server, start_control", "src/wmcore.rs: WMCore::run_serve, start_serve"]}
{"id": "C57", "title": "Log fields are padded and truncated to the configured width", "statement": "A log field with minimum and maximum width prints the text cut to the maximum number of characters, padded with the fill character to the minimum on the configured side, for texts of any characters written in any pieces, never splitting a character.", "quantifier": "every text, widths, fill, alignment and write segmentation", "why_tests_cant": "unbounded texts and segmentations", "anchors": ["src/log/pattern/mod.rs: MaxWidthWriter, LeftAlignWriter, RightAlignWriter, Chunk::encode"]}
{"id": "C58", "title": "Log patterns print literal text unchanged", "statement": "Parsing any text after escaping braces, parentheses and backslashes yields only literal pieces whose concatenation is the text; parsing any pattern terminates.", "quantifier": "every text", "why_tests_cant": "unbounded texts", "anchors": ["src/log/pattern/parser.rs: Parser"]}
{"id": "C59", "title": "Each upstream address is health-checked once", "statement": "The list of addresses to be health-checked contains every address of every non-UDP upstream group exactly once.", "quantifier": "every configuration", "why_tests_cant": "unbounded configurations", "anchors": ["src/option.rs: ConfigOption::get_health_check, try_add_upstream"]}
{"id": "C60", "title": "A writer learns that its tunnel is gone", "statement": "Writing to a tunnelled stream whose tunnel connection has ended reports an error instead of waiting forever.", "quantifier": "every history before the loss and every sequence of writes after it", "why_tests_cant": "a wait that never ends cannot be observed by a finite test, and the history before the loss is unbounded", "anchors": ["src/streams/virtual_stream.rs: VirtualStream::poll_write"]}
{"id": "C61", "title": "Malformed sizes and durations are rejected", "statement": "A size or duration text that is not a number with an optional known unit is rejected with an error instead of being given some value.", "quantifier": "every text", "why_tests_cant": "the set of malformed texts is infinite", "anchors": ["src/config/size.rs: ConfigSize::from_str", "src/config/duration.rs: ConfigDuration::from_str"]}
{"id": "C62", "title": "A rate is a size per duration", "statement": "A rate text 'SIZE/DURATION', with optional blanks around both parts, denotes exactly the size and the duration of its parts; a text without a slash is rejected.", "quantifier": "every pair of texts", "why_tests_cant": "unbounded texts", "anchors": ["src/config/rate.rs: ConfigRate::from_str"]}
{"id": "C63", "title": "Protocol flags are independent", "statement": "Enabling one protocol in the flag set enables that protocol and no other.", "quantifier": "every flag set", "why_tests_cant": "interaction of all flag combinations", "anchors": ["src/flag.rs: Flag"]}
{"id": "C64", "title": "Request limits in force are those of the current configuration", "statement": "After loading a configuration (also after a reload) every limit zone uses the limit, rate and period of that configuration, and zones do not influence each other.", "quantifier": "every sequence of configurations and requests", "why_tests_cant": "depends on the history of the process", "anchors": ["src/data/limit_req_data.rs: LimitReqData::cache, recv_new_req", "src/reverse/http.rs: copy_to_child"]}
{"id": "C65", "title": "A request counts once against its request limit", "statement": "One client request is counted at most once by the request limit of a zone, whatever locations it passes through.", "quantifier": "every configuration and request", "why_tests_cant": "try lists can refer to each other arbitrarily", "anchors": ["src/reverse/http.rs: HttpConfig::deal_match_location", "src/reverse/limit_req.rs: LimitReqMiddleware"]}
{"id": "C66", "title": "Header rules apply to every proxied response", "statement": "Every response of an upstream that reaches the client has the response header rules of its location applied, also when the upstream connection was used before.", "quantifier": "every configuration and sequence of requests on a connection", "why_tests_cant": "depends on the history of the connection", "anchors": ["src/reverse/http.rs: HttpConfig::deal_match_location", "src/reverse/location.rs: LocationConfig::deal_reverse_proxy"]}
{"id": "C67", "title": "Access rules also hold for WebSocket requests", "statement": "A WebSocket request is connected to the upstream of a location only if the location's allow list, deny list and request limit admit the client.", "quantifier": "every configuration and request", "why_tests_cant": "unbounded configurations", "anchors": ["src/reverse/ws.rs: ServerWsOperate::on_open", "src/reverse/reverse_helper.rs: get_location_by_req"]}
{"id": "C68", "title": "A closed upstream connection does not lose the next request", "statement": "When a kept upstream connection has been closed in the meantime, the next request is sent over a new connection instead of being answered with an error.", "quantifier": "every sequence of requests and upstream closings", "why_tests_cant": "depends on the time at which the upstream closes", "anchors": ["src/reverse/http.rs: HttpConfig::deal_match_location"]}
{"id": "C69", "title": "A kept upstream connection serves only the location it was opened for", "statement": "Requests of one client connection that belong to different locations or server blocks never share an upstream connection.", "quantifier": "every configuration and pair of requests", "why_tests_cant": "unbounded configurations", "anchors": ["src/reverse/location.rs: Hash and PartialEq for LocationConfig", "src/reverse/http.rs: HttpConfig::deal_match_location, inner_operate_by_http"]}
{"id": "C70", "title": "Hidden files are never served", "statement": "No file whose path contains one of the configured hidden texts is sent or shown in a directory page.", "quantifier": "every request path, configuration and file system", "why_tests_cant": "adversarial paths", "anchors": ["src/plugins/file_server.rs: FileServer::is_hide_path, deal_request"]}
{"id": "C71", "title": "Conditional requests get 304 exactly when the copy is current", "statement": "A request with a matching If-None-Match or If-Modified-Since gets status 304 without content, and a request with neither never gets 304.", "quantifier": "every combination of conditional and range headers and file state", "why_tests_cant": "interaction of many headers", "anchors": ["src/plugins/file_server.rs: FileServer::try_cache, after_file_response"]}
{"id": "C72", "title": "HEAD responses have no content", "statement": "The response to a HEAD request for a file carries no content, whatever other headers the request has.", "quantifier": "every combination of headers", "why_tests_cant": "interaction of many headers", "anchors": ["src/plugins/file_server.rs: FileServer::after_file_response"]}
{"id": "C73", "title": "ETags identify length and change time", "statement": "Two states of a file have the same ETag exactly if their lengths and the seconds of their last changes are equal.", "quantifier": "every pair of file states", "why_tests_cant": "2^128 pairs", "anchors": ["src/plugins/file_server.rs: FileServer::calc_etag"]}
{"id": "C74", "title": "The configured rate limit applies to what the file server sends", "statement": "Every file and directory page is sent with the configured rate limit.", "quantifier": "every configuration and request", "why_tests_cant": "unbounded configurations", "anchors": ["src/plugins/file_server.rs: FileServer::build_response_by_file, deal_request"]}
{"id": "C75", "title": "Configured media types override built-in ones", "statement": "The media type of a file is the configured one for its extension if there is one, else the built-in one, else the default.", "quantifier": "every extension and configuration", "why_tests_cant": "unbounded configurations", "anchors": ["src/plugins/file_server.rs: FileServer::get_mimetype"]}
{"id": "C76", "title": "No request makes the file server panic", "statement": "Handling a request path never ends in a panic.", "quantifier": "every request path and configuration", "why_tests_cant": "adversarial paths", "anchors": ["src/plugins/file_server.rs: FileServer::deal_request"]}
{"id": "C77", "title": "Data sent right behind a SOCKS5 request reaches the target", "statement": "Whatever a SOCKS5 client sends behind its connect request is delivered to the target completely and in order, also when it arrives together with the request.", "quantifier": "every request, data and segmentation", "why_tests_cant": "depends on how the network cuts the stream", "anchors": ["src/proxy/socks5.rs: ProxySocks5::process, read_len"]}
{"id": "C78", "title": "SOCKS5 UDP datagrams go to the address in their header", "statement": "A datagram of the client is forwarded to exactly the address in its header with exactly the data behind the header, and a reply is handed to the client with the address of its sender in the same format.", "quantifier": "every datagram and address", "why_tests_cant": "unbounded data, all addresses", "anchors": ["src/proxy/socks5.rs: ProxySocks5::udp_parse_request, udp_handle_request, udp_handle_response"]}
{"id": "C79", "title": "One bad datagram does not end a UDP association", "statement": "Datagrams that are malformed, marked as fragments, or name an unknown host are dropped and the following ones are forwarded.", "quantifier": "every sequence of datagrams", "why_tests_cant": "adversarial sequences", "anchors": ["src/proxy/socks5.rs: ProxySocks5::udp_handle_request"]}
{"id": "C80", "title": "No client input makes the SOCKS5 handler panic", "statement": "Whatever a SOCKS5 client sends and whenever it closes, the handler ends with success or an error, never a panic; the same for every datagram.", "quantifier": "every byte sequence, segmentation and closing point", "why_tests_cant": "adversarial input and closing points", "anchors": ["src/proxy/socks5.rs: ProxySocks5::read_head_len, read_addr, udp_parse_request"]}
{"id": "C81", "title": "No Proxy-Authorization header makes the HTTP proxy panic", "statement": "Whatever the value of the Proxy-Authorization header, the request is answered.", "quantifier": "every header value", "why_tests_cant": "adversarial input", "anchors": ["src/proxy/http.rs: Operate::check_basic_auth"]}
{"id": "C82", "title": "Each proxied HTTP request goes to the target it names", "statement": "On a connection to the HTTP proxy with several requests each is forwarded to the host named in it.", "quantifier": "every sequence of requests on a connection", "why_tests_cant": "request sequences", "anchors": ["src/proxy/http.rs: Operate::operate"]}
{"id": "C83", "title": "Proxy credentials are not disclosed to targets", "statement": "With credentials configured, no request forwarded to a target carries the Proxy-Authorization header of the client.", "quantifier": "every sequence of requests on a connection", "why_tests_cant": "request sequences", "anchors": ["src/proxy/http.rs: Operate::operate"]}
{"id": "C84", "title": "The configured protocol set is the one enabled", "statement": "The protocols enabled by a textual setting are exactly those named by its words, an unknown word is an error, a numeric setting enables exactly its bits or is an error, and a set written as text is read back the same.", "quantifier": "every text and number", "why_tests_cant": "unbounded texts", "anchors": ["src/flag.rs: Flag::from_str, Flag::fmt, Flag::deserialize"]}
{"id": "C85", "title": "A UDP client gets only datagrams the upstream server sent", "statement": "Every datagram a client of a UDP forward receives was sent by the upstream server to the socket opened for this client.", "quantifier": "every interleaving of datagrams, task ends and writes", "why_tests_cant": "interleavings; the extra datagram appears only when a task ends", "anchors": ["src/reverse/stream.rs: StreamUdp::process_data (the spawned task), poll_write"]}
{"id": "C86", "title": "UDP replies arrive whole", "statement": "A datagram the upstream server sends reaches the client with all its bytes, or not at all.", "quantifier": "every datagram length and state", "why_tests_cant": "every length", "anchors": ["src/reverse/stream.rs: StreamUdp::deal_udp_bind"]}
{"id": "C87", "title": "A UDP client is served again after its upstream socket failed", "statement": "After the socket of a client has failed, later datagrams of this client are still forwarded (through a new socket).", "quantifier": "every later history", "why_tests_cant": "histories: the loss lasts as long as the client keeps sending", "anchors": ["src/reverse/stream.rs: StreamUdp::process_data, poll_sender"]}
{"id": "C88", "title": "State kept for UDP clients is released", "statement": "A client that stays silent longer than the timeout is eventually forgotten, so the state kept does not grow with the number of past clients.", "quantifier": "every history", "why_tests_cant": "unbounded histories", "anchors": ["src/reverse/stream.rs: StreamUdp::process_data"]}
{"id": "C89", "title": "The process does not outlive its last service", "statement": "When every service of the process has ended, the process ends, so that a supervisor can notice and restart it.", "quantifier": "every history of reloads, stops, failures and panics", "why_tests_cant": "histories with failures and panics", "anchors": ["src/control/server.rs: ControlServer::inner_start_server, start_control"]}
{"id": "C90", "title": "The control server tells the truth", "statement": "A reload is reported as successful only if the configuration could be read and the new service started, and the configuration shown is the one in use.", "quantifier": "every history of control requests", "why_tests_cant": "histories", "anchors": ["src/control/server.rs: ControlServer::inner_operate, do_restart_serve"]}
{"id": "C91", "title": "Formatting a log line or a configured response never ends the request", "statement": "For every pattern and every request, formatting the pattern (access log, static response, rewritten path) yields a text; mistakes in the pattern show up as error texts in the output.", "quantifier": "every pattern and request", "why_tests_cant": "unbounded patterns", "anchors": ["src/helper.rs: Helper::format_req", "src/log/pattern/mod.rs: PatternEncoder, Chunk::encode"]}
{"id": "C92", "title": "A locally opened stream is announced before its data", "statement": "When a visitor's stream is opened at one end of a tunnel, the peer is sent the open request carrying the stream's id and requested name, and in the outgoing byte stream that request precedes every data or close message of the stream.", "quantifier": "every history of both ends, every interleaving of the tasks of the streams with the steps of the tunnel loop", "why_tests_cant": "the order depends on thread interleavings between two polls of one select", "anchors": ["src/streams/center_server.rs: CenterServer::inner_serve", "src/streams/center_client.rs: CenterClient::inner_serve, deal_new_stream", "src/trans/tcp.rs: TransTcp::process", "src/trans/http.rs: TransHttp::inner_operate"]}
{"id": "C93", "title": "Queues inside a tunnel end are bounded", "statement": "At every moment at most 10 messages wait in the queue of any stream and at most 100 submitted messages wait to be accepted for sending.", "quantifier": "every history of both ends", "why_tests_cant": "a bound must hold in every reachable state", "anchors": ["src/streams/center_server.rs: CenterServer::new, inner_serve", "src/streams/center_client.rs: CenterClient::new, inner_serve"]}
{"id": "C94", "title": "Accepted messages are eventually written", "statement": "Bytes accepted for sending are written once the connection can take them, whatever the peer and the local streams do meanwhile.", "quantifier": "every schedule of arrivals, submissions and readiness of the connection", "why_tests_cant": "starvation shows only under sustained load chosen by the peer", "anchors": ["src/streams/center_server.rs: CenterServer::inner_serve", "src/streams/center_client.rs: CenterClient::inner_serve"]}
{"id": "C95", "title": "Connections of a reconnecting client do not mix", "statement": "A message submitted for a stream of one tunnel connection is sent on that connection or not at all; over all connections every message is sent at most once and in submission order.", "quantifier": "every sequence of connections, their histories and the submissions between them", "why_tests_cant": "depends on what is queued at the moment the connection breaks", "anchors": ["src/streams/center_client.rs: CenterClient::serve, inner_serve", "src/streams/center_server.rs: CenterServer::new"]}
{"id": "C96", "title": "A try list answers with its first path that gives no error status", "statement": "A location with a list of paths to try answers each request with the answer of the first path, in the order of the list, whose answer has no error status; if every path gives an error status the answer has the status configured for the list; the paths after the chosen one are not asked.", "quantifier": "every configuration, every request, every behaviour of the paths tried", "why_tests_cant": "the answers of the tried paths come from other servers and files and vary without bound, so tests can only fix a few combinations of them", "anchors": ["src/reverse/http.rs:327-351 inner_operate_by_try_paths", "src/reverse/try_paths.rs:38-60"]}
{"id": "C97", "title": "The file server sends the file that the path names", "statement": "A request whose path is the location's prefix followed by a path h is answered with the file h below the configured directory if it exists; for a directory with the first index file it contains; otherwise for a directory with a listing of exactly its entries that are not hidden, if listing is switched on; and it is refused in the remaining cases.", "quantifier": "every file system, every file server configuration with a directory, every path that nothing hides", "why_tests_cant": "the file system and the request path are unbounded inputs; tests fix one directory tree", "anchors": ["src/plugins/file_server.rs:160-345 deal_request"]}
{"id": "C98", "title": "Precompressed forms are only sent to clients that accept them", "statement": "When the configuration lists precompressed encodings, the first one that the client accepts and for which a file with the matching ending exists is sent in place of the file and labelled with its encoding; a client that does not accept an encoding never gets it.", "quantifier": "every Accept-Encoding value, every configuration, every file system", "why_tests_cant": "the header value is free text with qualities and wildcards; tests cover the usual values only", "anchors": ["src/plugins/file_server.rs:298-341"]}
{"id": "C99", "title": "A reload that works hands over to the new configuration", "statement": "Each configuration that could be read gets one new service, in the order of the reloads; once the services that were started are up or have ended, every service but the latest ends, so that the latest configuration serves alone.", "quantifier": "every history of reloads, stops, failing starts, errors and panics, in every order", "why_tests_cant": "reloads overlap with starts and ends of earlier services; the number of interleavings is unbounded", "anchors": ["src/control/server.rs:73-128", "src/wmcore.rs:251-373 run_serve"]}
{"id": "C100", "title": "A request to stop ends every service", "statement": "After a request to stop that no reload follows, every service ends as soon as the starts under way are settled, also when the request came in the middle of a reload.", "quantifier": "every history before and after the request, without a later reload", "why_tests_cant": "the request may fall between any two steps of a reload; tests try a few of them", "anchors": ["src/control/server.rs:113-119", "src/wmcore.rs:355-358"]}
{"id": "C101", "title": "A log pattern prints what it says", "statement": "A pattern made of literal text with the documented escapes, formatters by name, dates with format and zone, and groups nested to any depth, each with optional fill character, alignment, minimal and maximal width, prints exactly the texts these stand for, in order and at the widths asked for.", "quantifier": "every pattern of the documented language, every request that is logged", "why_tests_cant": "patterns nest without bound and combine freely; tests use a handful of patterns", "anchors": ["src/log/pattern/parser.rs", "src/log/pattern/mod.rs:372-744", "src/helper.rs:230-247 format_req"]}
{"id": "C102", "title": "Active checks are paced", "statement": "The active health check asks a server exactly when it was never asked before or when more than the configured interval has passed since it was last asked, whatever outcomes were recorded meanwhile and whatever happens to other servers; the checking loop starts a check of every listed server at the first turn and then at each turn more than an interval after the last start.", "quantifier": "every history of outcomes and questions, every interval, every sequence of loop turns", "why_tests_cant": "the pace must hold over unbounded histories of interleaved checks", "anchors": ["src/check/health.rs:89-111 HealthCheck::check_can_request", "src/check/active.rs:122-147 ActiveHealth::repeat_check"]}
{"id": "C103", "title": "An active check records one outcome", "statement": "Each active check that asks a server records exactly one outcome, for this server only: a success if a response came in time and, for http checks, its status is not a server error; otherwise a failure. A check that may not ask records nothing.", "quantifier": "every state of the health records, every response or lack of one", "why_tests_cant": "all combinations of health state and response", "anchors": ["src/check/active.rs:60-106 OneHealth::do_check"]}
{"id": "C104", "title": "A visitor and its local service talk to each other, and to nobody else", "statement": "For every visitor of the server that is tunnelled to a client: what is written to the local service is a beginning of the bytes this visitor sent, what is written to the visitor is a beginning of the bytes this local service sent, and once nothing is under way each side has got everything the other sent.", "quantifier": "every interleaving of the tasks of all visitors, of both ends of the tunnel, of all local connections and of unrelated tasks; every division of the byte streams by reads and writes; every configuration", "why_tests_cant": "depends on the interleaving of many tasks on two machines and on the fill of every queue between them", "anchors": ["src/trans/tcp.rs: TransTcp::process", "src/streams/center_server.rs: CenterServer::inner_serve, deal_new_stream", "src/streams/center_client.rs: CenterClient::inner_serve", "src/streams/trans_stream.rs: TransStream::copy_wait"]}
{"id": "C105", "title": "A visitor reaches the service of the mapping for its listener", "statement": "A visitor who comes to the server's listener for some mode is connected to the local address of the client's last mapping of that mode (or served by the client's proxy, if that mapping says so).", "quantifier": "every configuration of mappings, every history of both ends", "why_tests_cant": "mapping lists are unbounded, and the choice is made in two places on two machines", "anchors": ["src/trans/tcp.rs: TransTcp::process", "src/streams/center_client.rs: CenterClient::inner_serve"]}
{"id": "C106", "title": "Each request of an HTTP visitor of the tunnel reaches the service of the host it names", "statement": "A request that comes to the server's HTTP listener for tunnelled services goes to the client's service mapped for the request's host, with that mapping's header rules applied to it and to the answer; if there is no such mapping the visitor gets the notice that nothing was found. This holds for every request of a connection, whatever came before on it.", "quantifier": "every list of mappings (changing over time), every sequence of requests on a connection, every behaviour of the service", "why_tests_cant": "sequences of requests and lists of mappings are unbounded; the mapping is chosen in two places on two machines", "anchors": ["src/trans/http.rs: HttpOper::inner_operate, TransHttp::process", "src/streams/center_client.rs: CenterClient::inner_serve"]}
{"id": "C107", "title": "Each configured HTTP address is listened on, with TLS where configured", "statement": "When the service starts, each address of the HTTP part of the configuration has exactly one listener, no other address has one, and a listener speaks TLS exactly where the configuration asks for it; if every address can be opened and every certificate needed can be used, the service starts.", "quantifier": "every list of server blocks with any addresses, and every behaviour of the operating system when addresses are opened", "why_tests_cant": "configurations are unbounded lists whose addresses may repeat within and between blocks", "anchors": ["src/reverse/http.rs: HttpConfig::bind"]}
{"id": "C108", "title": "A server block is reached only through its own addresses", "statement": "A request is served only by a server block that is configured for the address to which the connection was made.", "quantifier": "every list of server blocks, every listener, every host name", "why_tests_cant": "all combinations of addresses, ports and host names", "anchors": ["src/wmcore.rs: WMCore::run_serve", "src/config/wrap.rs: WrapVecAddr::contains"]}
{"id": "C109", "title": "Requests over TLS are routed by their host as those without TLS", "statement": "The server block that serves a request depends on the host that the request names, whether or not the connection uses TLS and whatever name the client gave when it connected.", "quantifier": "every list of server blocks, every pair of names", "why_tests_cant": "all combinations of names given at connection and in requests", "anchors": ["src/wmcore.rs: WMCore::run_serve", "src/reverse/http.rs: InnerHttpOper"]}
{"id": "C110", "title": "The certificate shown belongs to the block that serves", "statement": "A client that asks for a name over TLS, is shown a server block's certificate, and then asks for the same name in its request is served by this block.", "quantifier": "every list of server blocks with names, domains and certificates; every name", "why_tests_cant": "names and domains may coincide in any way between blocks", "anchors": ["src/reverse/http.rs: HttpConfig::get_tls_accept", "src/wmcore.rs: WMCore::run_serve"]}
{"id": "C111", "title": "Each configured stream address is listened on and served by its own block", "statement": "When the service starts, each address of the stream part of the configuration is listened on with its protocol, and connections to it are served by the block for which it is configured.", "quantifier": "every list of stream blocks with any addresses", "why_tests_cant": "configurations are unbounded lists whose addresses and ports may repeat", "anchors": ["src/reverse/stream.rs: StreamConfig::bind, StreamConfig::process"]}
{"id": "C112", "title": "Connections to stream listeners are forwarded independently", "statement": "A connection to a stream listener is forwarded without waiting for other connections to end.", "quantifier": "every sequence of connections arriving and ending", "why_tests_cant": "schedules of arrivals and ends are unbounded", "anchors": ["src/reverse/stream.rs: StreamConfig::process", "src/wmcore.rs: WMCore::run_serve"]}
{"id": "C113", "title": "Configured encryption of the tunnel is used", "statement": "If the configuration asks for TLS on the tunnel (to accept clients, to connect to the server, or for HTTPS visitors), then connections use TLS with the configured certificates and key, demanding certificates of clients if this is asked for; otherwise the service does not start.", "quantifier": "every combination of settings, every content of certificate and key files, everything the TLS library accepts or refuses", "why_tests_cant": "contents of files are unbounded; what happens depends on all of them together", "anchors": ["src/option.rs: ProxyConfig::get_tls_accept, ProxyConfig::get_tls_request, ProxyConfig::get_map_tls_accept, ProxyConfig::load_certs, ProxyConfig::load_keys, ProxyConfig::bind, ProxyConfig::bind_map"]}
{"id": "C114", "title": "A visitor reaches a client that offers the service", "statement": "If some connected client offers the service for which a visitor comes, the visitor is announced to a client that offers it; connections that have not logged in have no influence on this.", "quantifier": "every list of tunnel connections in any state reachable by any messages, every mode and host", "why_tests_cant": "numbers and histories of connections are unbounded", "anchors": ["src/wmcore.rs: WMCore::server_new_http, WMCore::server_new_tcp, WMCore::deal_center_stream", "src/trans/tcp.rs: TransTcp::process", "src/trans/http.rs: HttpOper"]}
{"id": "C115", "title": "Nobody keeps the service from accepting others' connections", "statement": "The main task hands every connection on without waiting for the one who made it, so that other connections are accepted and a request to stop is followed at any time; no connection is lost or handled twice.", "quantifier": "every sequence of arrivals, answers and requests to stop; every configuration", "why_tests_cant": "schedules are unbounded and include peers that never answer", "anchors": ["src/wmcore.rs: WMCore::run_serve, WMCore::deal_center_stream, WMCore::deal_client_stream", "src/streams/center_trans.rs: CenterTrans::serve", "src/streams/center_client.rs: CenterClient::deal_new_stream"]}
{"id": "C116", "title": "When one side of a tunnelled connection ends, so does the other, and only then", "statement": "Once the connection on one side of the tunnel (visitor or local service) has ended and everything under way has been delivered, the connection on the other side is ended; a connection is ended by the tunnel only if the other side has ended, no connection could be opened for it, or the tunnel itself has ended.", "quantifier": "every interleaving of visitors, both tunnel ends, local services and other tasks; every split of the bytes on the network", "why_tests_cant": "the notice of the end can meet any schedule of the two ends and any fill of the queues between them", "anchors": ["src/streams/trans_stream.rs: TransStream::copy_wait", "src/streams/center_client.rs: CenterClient::inner_serve", "src/streams/center_server.rs: CenterServer::inner_serve", "src/trans/tcp.rs: TransTcp::process"]}
{"id": "C117", "title": "A proxied request goes to a server of the group its proxy_url names", "statement": "A request to a location with a proxy_url is sent to a server of the upstream group named by the URL's host - the group of that name in the innermost block that has one -, preferring servers not known to be down; with TLS, for the URL's host, unless the scheme is http. If no group has that name it is sent to that host and port. It is never sent anywhere else.", "quantifier": "every configuration (nesting of groups, names, weights), every history of connection outcomes, every random draw, every request", "why_tests_cant": "depends on nested definitions of the same name, on the health history and on a random draw at the moment of the request", "anchors": ["src/reverse/location.rs: LocationConfig::deal_reverse_proxy, deal_request", "src/reverse/reverse_helper.rs: ReverseHelper::get_upstream_addr", "src/reverse/upstream.rs: UpstreamConfig::get_server_addr", "src/reverse/http.rs: HttpConfig::copy_to_child", "src/reverse/server.rs: ServerConfig::copy_to_child"]}
{"id": "C118", "title": "A connection to a stream block is forwarded to a server of its group", "statement": "A connection (or a new UDP client) of a stream block is forwarded to the address of a server of the group named by the host of its proxy_url, or, without proxy_url, by its up_name (the first group if that is empty); the innermost group of the name counts, and the address is the server's configured one. If no group has the URL's host as name, the host itself is used, and the connection is refused if the host is unknown.", "quantifier": "every configuration, every history of connection outcomes, every random draw", "why_tests_cant": "the choice depends on nested definitions, name resolution, the health history and a random draw", "anchors": ["src/reverse/server.rs: ServerConfig::get_addr_domain", "src/reverse/stream.rs: StreamConfig::process, StreamConfig::copy_to_child, StreamUdp::process_data", "src/reverse/reverse_helper.rs: ReverseHelper::get_upstream_addr"]}
{"id": "C119", "title": "An accepted WebSocket is connected to the upstream its location names", "statement": "A WebSocket request to a location that allows WebSocket is connected to a server of the group named by the host of the location's proxy_url (to the host itself if there is no such group), keeping scheme and path; if that is not possible, it is refused.", "quantifier": "every configuration, every history of connection outcomes, every random draw, everything sent afterwards", "why_tests_cant": "the claim is about all later messages of the session as well as all configurations", "anchors": ["src/reverse/ws.rs: ServerWsOperate::on_open", "src/reverse/location.rs: LocationConfig::get_upstream_addr, get_reverse_url"]}
{"id": "C120", "title": "A WebSocket session relays every message once, unchanged and in order", "statement": "In a connected WebSocket session every message (text, binary, ping, pong, close) read from one side is sent to the other side once, unchanged and in order, and none is lost while both connections last; at most ten are under way in each direction. After one connection has ended the other one ends no later than at its next message.", "quantifier": "every interleaving of messages in both directions and of the two connections' tasks; every sequence of messages", "why_tests_cant": "order and loss depend on the interleaving of the two tasks and on how far each direction has fallen behind", "anchors": ["src/reverse/ws.rs: ServerWsOperate, ClientWsOperate (on_open, on_message, on_ping, on_pong, on_close)"]}
{"id": "C121", "title": "Options given on the command line are in force", "statement": "The options common to all subcommands (address of the control server, switching it or the terminal output off, process-id file, log level, verbosity) are those the started service uses.", "quantifier": "every combination of options and every subcommand that starts a service, every configuration file", "why_tests_cant": "the combinations of options, subcommands and files are unbounded; each option is carried over separately", "anchors": ["src/arg.rs: Shared, parse_env"]}
{"id": "C122", "title": "`check` tells whether `run` would start", "statement": "`check` with a file reports success, in text and exit status, exactly if `run` with the same file starts a service; neither crashes.", "quantifier": "every path, every content of the file, every outcome of reading and parsing it", "why_tests_cant": "relates two subcommands over all files", "anchors": ["src/arg.rs: read_config_from_path, parse_env (Command::Check, Command::Config)", "src/main.rs: main", "src/option.rs: ConfigOption::after_load_option"]}
{"id": "C123", "title": "`reverse-proxy --from --to` forwards everything to the one server", "statement": "With the subcommand reverse-proxy every address of --from is listened on and no other, and every request there, whatever its host, path and method and whatever happened before, is sent to the address of --to, over TLS exactly if --tls is given.", "quantifier": "every list of addresses, every request, every history of connection outcomes, every random draw", "why_tests_cant": "a claim about all requests and histories, through listeners, matching, inheritance and the choice of the server", "anchors": ["src/arg.rs: ReverseProxyConfig, parse_env", "src/reverse/http.rs: HttpConfig::bind, HttpConfig::copy_to_child, HttpConfig::process", "src/reverse/location.rs: LocationConfig::deal_reverse_proxy", "src/reverse/upstream.rs: UpstreamConfig::new_single"]}
{"id": "C124", "title": "`ws-proxy` forwards every connection in the mode given", "statement": "With the subcommand ws-proxy every connection is forwarded to the address of --to in the mode given (ws2tcp, tcp2ws, tcp2wss, in any spelling); another mode is refused at the start.", "quantifier": "every text given as mode, every history of connection outcomes, every random draw", "why_tests_cant": "over all texts and histories", "anchors": ["src/arg.rs: WsProxyConfig, parse_env", "src/reverse/stream.rs: StreamConfig::process"]}
{"id": "C125", "title": "`file-server` serves with the settings given", "statement": "With the subcommand file-server the root, robots text, error page, cache time, CORS, header rules, listing of directories and media types are those given; TLS addresses without certificate and key are refused.", "quantifier": "every combination of the options, every request", "why_tests_cant": "over all combinations of options and all requests", "anchors": ["src/arg.rs: FileServerConfig, parse_env", "src/plugins/file_server.rs: FileServer::new"]}
{"id": "C126", "title": "`--forever` restarts the service until it ends properly", "statement": "With --forever a new process is started whenever the last one ended other than properly, and only then; `stop` ends the service.", "quantifier": "every sequence of endings of the processes", "why_tests_cant": "over unbounded sequences of crashes, errors and kills", "anchors": ["src/arg.rs: parse_env (forever), Command::Stop", "src/main.rs: main, run_main"]}
{"id": "C127", "title": "Bytes through the proxy of the server above", "statement": "With a client whose users are served by the proxy of the server it is connected to, the bytes the proxy reads for a user are exactly those the user sent, and the bytes the user is given are exactly those the proxy wrote for it; none is lost, repeated, reordered or another user's.", "quantifier": "every number of users, every content, every interleaving of users, both tunnel ends, network and proxy tasks", "why_tests_cant": "a claim about all schedules and all bytes across two processes", "anchors": ["src/wmcore.rs: WMCore::deal_client_stream", "src/streams/center_client.rs: CenterClient::deal_new_stream, inner_serve", "src/streams/center_server.rs: inner_serve", "src/streams/virtual_stream.rs: VirtualStream", "src/streams/trans_stream.rs: TransStream"]}
{"id": "C128", "title": "Either side's end of a stream through the server above is passed on", "statement": "When a user of a client leaves, the server's proxy is told the end of the stream; when the proxy ends the stream, the user's connection is ended; neither is told without that reason while the tunnel lives.", "quantifier": "every number of users, every interleaving", "why_tests_cant": "a claim about all schedules across two processes", "anchors": ["src/streams/center_server.rs: inner_serve", "src/streams/virtual_stream.rs: VirtualStream::poll_shutdown", "src/streams/trans_stream.rs: TransStream::copy_wait"]}
{"id": "C131", "title": "Text of limit_req", "statement": "A limit_req text means the zone and burst it names, the last of each; an unknown setting is rejected; what was read is printed as a text that is read as the same setting.", "quantifier": "every text, every list of settings", "why_tests_cant": "infinitely many texts", "anchors": ["src/reverse/limit_req.rs: LimitReq::from_str, fmt"]}
{"id": "C132", "title": "Text of limit_req_zone", "statement": "A zone text means the key, the size and the rate it names; a text that is no zone is rejected; a zone is printed as a text that is read as the same zone.", "quantifier": "every key, size, rate and separator", "why_tests_cant": "infinitely many texts and numbers", "anchors": ["src/reverse/limit_req.rs: LimitReqZone::from_str, fmt", "src/config/rate.rs", "src/config/size.rs", "src/config/duration.rs"]}
{"id": "C133", "title": "Text of try_paths", "statement": "A try_paths text means the list of its paths in order and the status it names, 404 if none; an entry that is neither is rejected; a setting is printed as a text that is read as the same setting.", "quantifier": "every list of paths and statuses, plain or quoted", "why_tests_cant": "infinitely many texts", "anchors": ["src/reverse/try_paths.rs: TryPathsConfig::from_str, fmt", "src/helper.rs: Helper::split_by_whitespace"]}
{"id": "C134", "title": "Text of access_log and error_log", "statement": "A log text means the log it names, the format and the level; a wrong text is rejected; a setting is printed as a text that is read as the same setting.", "quantifier": "every name, format, level and further text", "why_tests_cant": "infinitely many texts", "anchors": ["src/config/log.rs: ConfigLog::from_str, fmt, as_error"]}
{"id": "C135", "title": "Text of the sets of methods and schemes of a matcher", "statement": "Names separated by whitespace mean the set of them; a set is printed as a text that is read as the same set.", "quantifier": "every set, every order", "why_tests_cant": "infinitely many texts", "anchors": ["src/reverse/matcher.rs: MatchMethod, MatchScheme"]}
{"id": "C129", "title": "Access log lines of a request", "statement": "Every request a location answers leaves exactly one line in the location's access log, telling the request and its answer, and no line in any other log.", "quantifier": "every configuration, request, history of the connection and answer", "why_tests_cant": "a claim about all configurations and histories", "anchors": ["src/helper.rs: Helper::log_acess", "src/reverse/location.rs: LocationConfig::deal_request", "src/reverse/http.rs: deal_match_location"]}
{"id": "C130", "title": "Log files", "statement": "A log named in the configuration is written to the file its block gives for it, at the level it gives; a log setting that cannot work is reported as an error.", "quantifier": "every configuration with any number of servers and locations, every text and level, every state of the file system", "why_tests_cant": "a claim about all configurations", "anchors": ["src/helper.rs: Helper::try_init_log", "src/option.rs: ConfigOption::get_log_names", "src/reverse/http.rs: HttpConfig::after_load_option, get_log_names", "src/arg.rs: parse_env"]}
{"id": "C136", "title": "Entries of try lists", "statement": "An entry of a try list stands for the request printed in its format; an entry of a regular expression, a format and a replacement stands for the request printed in the format with all matches replaced. This never depends on earlier requests, though expressions and formats are kept, and what is kept is bounded by the configuration.", "quantifier": "every entry, request, meaning of regular expressions and history of requests", "why_tests_cant": "a claim about all texts and all histories", "anchors": ["src/helper.rs: Helper::format_req_may_regex, inner_oper_regex, try_cache_regex, format_req", "src/reverse/http.rs: deal_match_location"]}
{"id": "C137", "title": "Fixed answers", "statement": "A location with a fixed answer answers every request with status 200 and the configured text, filled in for the request. The memory these texts take does not grow with the number of times they are read.", "quantifier": "every text, request and history", "why_tests_cant": "a claim about all texts and requests", "anchors": ["src/plugins/static_response.rs: StaticResponse", "src/helper.rs: Helper::get_static_str, format_req"]}
{"id": "C138", "title": "Timeouts", "statement": "The timeouts of a client's connection are those configured for the server that serves its requests, or for http if the server gives none; those of an upstream connection are those of the location, or of the blocks around it.", "quantifier": "every configuration of http, servers and locations, every listener and name asked for", "why_tests_cant": "a claim about all configurations", "anchors": ["src/reverse/common.rs: CommonConfig::build_client_timeout, build_proxy_timeout, copy_from_parent", "src/reverse/http.rs: HttpConfig::process", "src/wmcore.rs: WMCore::do_start_serve"]}
{"id": "C139", "title": "Every request is answered", "statement": "Every request gets an answer: the one it was served with, with the server header of this program, or if serving failed an error of the server (5xx).", "quantifier": "every configuration, request, upstream behaviour and history of the connection", "why_tests_cant": "a claim about all configurations and failures", "anchors": ["src/reverse/http.rs: HttpConfig::operate, inner_operate_by_http"]}
{"id": "C140", "title": "Settings made by a program", "statement": "Each setting of a proxy built by a program has the value of the last call that gives it, mappings are kept in the order of the calls, and no call changes another setting.", "quantifier": "every sequence of calls", "why_tests_cant": "a claim about all sequences of calls", "anchors": ["src/option.rs: Builder, ProxyConfig::default", "src/flag.rs: Flag"]}
{"id": "C141", "title": "Opening addresses", "statement": "Of the addresses given, the first one that can be opened is opened, for connections as for datagrams.", "quantifier": "every list of addresses and every behaviour of the operating system", "why_tests_cant": "a claim about all lists and all failures", "anchors": ["src/helper.rs: Helper::bind, bind_upd"]}
{"id": "C142", "title": "Nothing is kept of streams that have ended", "statement": "While a tunnel connection lasts, its ends keep nothing of streams that have ended, so that the memory they need is bounded by the streams that are open.", "quantifier": "every configuration and every history of a tunnel connection at either end", "why_tests_cant": "a claim about all histories, however long; a leak shows only after many streams", "anchors": ["src/streams/center_server.rs: CenterServer::inner_serve", "src/streams/center_client.rs: CenterClient::inner_serve"]}
{"id": "C143", "title": "Input from and output for the peer is held only in bounded amounts", "statement": "Whatever a peer sends or fails to take, an end of a tunnel holds only a bounded amount of bytes received and not yet handled, and of messages not yet sent.", "quantifier": "every configuration and every history of a tunnel connection at either end, the input in pieces of any size the end reads at once", "why_tests_cant": "a claim about all histories, including peers that never stop sending or never read", "anchors": ["src/streams/center_server.rs: CenterServer::inner_serve", "src/streams/center_client.rs: CenterClient::inner_serve"]}
{"id": "C144", "title": "The tunnels of a replaced service", "statement": "When a service is replaced by a reload, its tunnel connections go on working, or are closed so that the peer connects again.", "quantifier": "every configuration, every history of a tunnel connection at either end, every moment of the reload", "why_tests_cant": "a claim about all schedules of the loop of a tunnel against the end of its service", "anchors": ["src/streams/center_server.rs: CenterServer::serve, inner_serve", "src/streams/center_client.rs: CenterClient::serve, inner_serve", "src/control/server.rs: ControlServer::inner_start_server", "src/wmcore.rs: WMCore::run_serve"]}
{"id": "C145", "title": "After a start everything that is configured is in operation", "statement": "After a start every address of the configuration is listened on in its role and the server above is connected to; if something of this is not possible, the start fails.", "quantifier": "every configuration, every behaviour of the operating system, the network and the TLS library", "why_tests_cant": "a claim about all configurations and all failures", "anchors": ["src/wmcore.rs: WMCore::ready_serve", "src/option.rs: ProxyConfig::bind, bind_map", "src/reverse/http.rs: HttpConfig::bind", "src/reverse/stream.rs: StreamConfig::bind"]}
{"id": "C146", "title": "A directory page shows the directory", "statement": "The page for a directory shows every entry that is not hidden exactly once and no hidden one, folders before files, and for every file its size, rounded down to a unit.", "quantifier": "every file system, every configuration of a file server, every request", "why_tests_cant": "a claim about all directories and all configurations", "anchors": ["src/plugins/file_server.rs: FileServer::deal_request", "src/plugins/mod.rs: calc_file_size"]}
{"id": "C147", "title": "Links of a directory page lead to their entries", "statement": "Following the link of a line of a directory page leads to the entry of that line: to the file, or to the page of the folder.", "quantifier": "every file system, every name of an entry, every configuration of a file server", "why_tests_cant": "a claim about all names and the way back through the request path", "anchors": ["src/plugins/file_server.rs: FileServer::deal_request"]}
{"id": "C148", "title": "Names on a directory page are text", "statement": "The name of an entry is shown as text on the page of its directory; it never becomes part of the markup.", "quantifier": "every file system, every name of an entry", "why_tests_cant": "a claim about all names", "anchors": ["src/plugins/file_server.rs: FileServer::deal_request"]}
{"id": "C149", "title": "What is not there is answered with the configured status", "statement": "A request for a file that is not there is answered with the configured status, with or without a page configured for it.", "quantifier": "every file system, every configuration of a file server, every request", "why_tests_cant": "a claim about all requests and configurations", "anchors": ["src/plugins/file_server.rs: FileServer::ret_error_msg, build_response_by_file"]}
{"id": "C150", "title": "A reload interrupts nobody", "statement": "When the configuration is replaced, every connection that a visitor has made is served: those being served go on, and those that wait are taken, by the old service or by the new one.", "quantifier": "every history of reloads, stops, failing starts and arrivals, in every order, and every choice of the operating system between the listeners of an address", "why_tests_cant": "depends on the moment of each connection relative to each step of the handover, and on the operating system's choice", "anchors": ["src/control/server.rs: ControlServer::inner_start_server", "src/wmcore.rs: WMCore::run_serve", "src/helper.rs: Helper::bind"]}
{"id": "C151", "title": "Requests at the control port are answered", "statement": "While the process lives, each request at the control port is answered, in the order of arrival, whatever the services are doing.", "quantifier": "every state of the services, every sequence of requests, in every order", "why_tests_cant": "a request may wait for something that happens only in some histories, such as a start that hangs", "anchors": ["src/control/server.rs: ControlServer::inner_operate, start_control"]}
{"id": "C152", "title": "A start that hangs does not stand in the way of a later configuration", "statement": "If a later configuration is loaded while an earlier service is still starting, the later service begins to serve as soon as its listeners are open.", "quantifier": "every history of starts, stops and reloads", "why_tests_cant": "depends on which messages were sent before to a service that is not listening to them yet", "anchors": ["src/wmcore.rs: WMCore::run_serve, start_serve", "src/control/server.rs: ControlServer::inner_operate"]}
{"id": "C153", "title": "A slow stream does not hold up the others", "statement": "When the consumer of one stream of a tunnel does not take its data, the other streams of the tunnel go on in both directions.", "quantifier": "every history of a tunnel end, every number of streams, every choice of the consumers when to take data", "why_tests_cant": "the end stops only in particular fillings of its queues, and a deadlock needs a schedule in which several queues are full at once", "anchors": ["src/streams/center_server.rs: CenterServer::inner_serve", "src/streams/center_client.rs: CenterClient::inner_serve", "src/streams/virtual_stream.rs: VirtualStream::poll_write", "src/proxy/http.rs: ProxyHttp::process", "src/proxy/socks5.rs: ProxySocks5::tcp"]}
{"id": "C154", "title": "A relay keeps a limited amount of data", "statement": "A relay between a local connection and the tunnel keeps at most a fixed amount of data: it stops reading from a side while the other side does not take what was read.", "quantifier": "every schedule of reads, writes and messages", "why_tests_cant": "memory grows only when one side is slower than the other for long enough", "anchors": ["src/streams/trans_stream.rs: TransStream::inner_copy_wait"]}
{"id": "C155", "title": "Values of the logging context are printed", "statement": "`{X(key)(default)}` in a log pattern prints the value that the program has put into the logging context under the key, or else the default.", "quantifier": "every key, default, width and record", "why_tests_cant": "unbounded texts and formats", "anchors": ["src/log/pattern/mod.rs: From<Piece> for Chunk, FormattedChunk::encode"]}
{"id": "C156", "title": "Text of a header rule", "statement": "The text of a header rule means what it says: with the word proxy it is for requests to the upstream server, otherwise for responses; the signs +, - and ? add, remove and give a default, no sign replaces; a removal needs no value; other texts are rejected.", "quantifier": "every text made of words, in any quoting and spacing", "why_tests_cant": "unbounded texts; the cases that are misread look like those that are not", "anchors": ["src/config/header.rs: ConfigHeader::from_str, HeaderOper::from_str", "src/helper.rs: Helper::split_by_whitespace"]}
{"id": "C157", "title": "The answer of a local service can always be brought to its visitor", "statement": "Whatever has happened so far, while a visitor's connection, the local connection of its stream and both ends of the tunnel are at work, everything the local service has sent can still be brought to the visitor: by the mere passing on of what is under way, without a further byte from anybody and without the end of any connection. So the tunnel never blocks for good in this direction.", "quantifier": "every history with fewer than 2^23 visitors of one tunnel connection, including slow and vanished visitors of other streams, full queues and a server whose loop waits", "why_tests_cant": "a deadlock needs one particular combination of full queues among unboundedly many", "anchors": ["src/streams/center_server.rs: CenterServer::inner_serve", "src/streams/center_client.rs: CenterClient::inner_serve", "src/streams/trans_stream.rs: TransStream::inner_copy_wait"]}
{"id": "C158", "title": "What a visitor sends can always be brought to the local service", "statement": "Whatever has happened so far, while a visitor's connection, the local connection of its stream and both ends of the tunnel are at work, everything the visitor has sent can still be brought to the local service: by the mere passing on of what is under way, without a further byte from anybody and without the end of any connection.", "quantifier": "every history with fewer than 2^23 visitors of one tunnel connection, including slow and vanished visitors of other streams, full queues and a server whose loop waits", "why_tests_cant": "a deadlock or a loss needs one particular combination of full queues among unboundedly many", "anchors": ["src/streams/center_server.rs: CenterServer::inner_serve", "src/streams/center_client.rs: CenterClient::inner_serve", "src/streams/trans_stream.rs: TransStream::inner_copy_wait"]}
{"id": "C159", "title": "A UDP association carries its datagrams and ends with its connection", "statement": "A UDP association of the SOCKS5 proxy sends the datagrams it accepts one by one, each once, in order, to the address it names with the data it carries; what comes back is given, each at most once and in order, with the address it came from, to a sender of accepted datagrams; and when the TCP connection of the association is closed and this has been noticed, nothing is passed on any more.", "quantifier": "every sequence of datagrams from anybody on both sides, interleaved with the TCP connection, errors and the notices of its end in every order", "why_tests_cant": "the parts of an association run concurrently; order, loss and the end depend on the interleaving", "anchors": ["src/proxy/socks5.rs: ProxySocks5::udp_transfer, udp_handle_request, udp_handle_response, upd_handle_tcp_block"]}
{"id": "C160", "title": "Strangers have no part in an association", "statement": "Only the client that asked for a UDP association can have datagrams sent through it, and only this client gets what comes back.", "quantifier": "every sequence of datagrams of the client and of others", "why_tests_cant": "it takes one stranger's datagram at one particular moment", "anchors": ["src/proxy/socks5.rs: ProxySocks5::udp_handle_request (recv_buf_from, connect), udp_execute_assoc"]}
{"id": "C161", "title": "Datagrams from outside do not end an association", "statement": "Whatever datagrams come to an association from outside, it goes on serving its client.", "quantifier": "every datagram from every sender, in every state of the association", "why_tests_cant": "it takes one datagram of one size or at one moment", "anchors": ["src/proxy/socks5.rs: ProxySocks5::udp_handle_response, udp_transfer (try_join!)"]}
{"id": "C162", "title": "Answers of the file server carry the configured header lines", "statement": "Every answer of the file server carries the configured time to keep it (Cache-Control, in whole seconds) and, if access from other origins is switched on, the lines that allow it; and none of these lines if they are not configured.", "quantifier": "every configuration, file system, request path and set of request headers", "why_tests_cant": "the lines are set in one function that is called on some of the ways to an answer only", "anchors": ["src/plugins/file_server.rs: FileServer::after_file_response, deal_request, ret_error_msg, try_cache"]}
{"id": "C163", "title": "A client that asks again with its ETag gets the file again only if it changed", "statement": "A client that got a file and asks again with the ETag it was given is answered 304 without content while length and second of the last change are unchanged, and gets the file once one of them differs.", "quantifier": "every pair of requests, every state of the file at either time, every configuration", "why_tests_cant": "it relates two answers given at different times", "anchors": ["src/plugins/file_server.rs: FileServer::try_cache, calc_etag, after_file_response"]}
{"id": "C164", "title": "Content encoding is labelled", "statement": "The content of a file is sent with the label of the encoding it has: that of the precompressed form if one is sent, none otherwise.", "quantifier": "every configuration, file system and request", "why_tests_cant": "label and content are set in different functions, one of which overwrites the other's", "anchors": ["src/plugins/file_server.rs: FileServer::build_response_by_file, after_file_response"]}
{"id": "C165", "title": "A file is labelled with the media type of its ending", "statement": "A file is labelled with the media type belonging to the ending of its name: a built-in one, a configured one or the configured default.", "quantifier": "every file name and configuration", "why_tests_cant": "there are arbitrarily many names and endings", "anchors": ["src/plugins/file_server.rs: DEFAULT_MIMETYPE, FileServer::get_mimetype, build_response_by_file"]}
{"id": "C166", "title": "HEAD announces what GET would send", "statement": "HEAD for a file is answered as GET would be, without content, with the length of what GET would send.", "quantifier": "every file, configuration and set of request headers", "why_tests_cant": "it relates two answers to each other, for all combinations of conditions", "anchors": ["src/plugins/file_server.rs: FileServer::after_file_response"]}
{"id": "C167", "title": "The robots text", "statement": "With a robots text configured, every request for /robots.txt is answered 200 with exactly that text, labelled as plain text with its length, whatever files there are, whatever is hidden and whatever else the request asks for; and the text is sent for nothing else.", "quantifier": "every configuration, file system and request", "why_tests_cant": "it must win over every file, prefix, hidden name and condition", "anchors": ["src/plugins/file_server.rs: FileServer::deal_request"]}
{"id": "C168", "title": "An answer tells its end in one way", "statement": "No answer of the file server carries both a length and the mark that it is chunked (two ways to find its end, which receivers may take differently).", "quantifier": "every configuration, file system and request", "why_tests_cant": "the two lines are set in different functions, under different conditions", "anchors": ["src/plugins/file_server.rs: FileServer::deal_request, build_response_by_file, after_file_response"]}
{"id": "C169", "title": "The end of a local service can always be brought to its visitor", "statement": "Whatever has happened so far, once the local service of a visitor has ended its connection while the tunnel works, there is always a continuation made only of passing on what is already under way, with no further byte from anybody, after which the visitor's connection is no longer served and the tunnel still works. In every endless schedule in which every task on the way gets its turn again and again, this happens by itself.", "quantifier": "every configuration and every history of visitors, local services, and the connection between client and server, and every endless fair schedule", "why_tests_cant": "it is about every reachable state, including those with every buffer full and the server's loop waiting", "anchors": ["src/trans/tcp.rs: TransTcp::process", "src/streams/center_client.rs: CenterClient::inner_serve", "src/streams/center_server.rs: CenterServer::inner_serve", "src/streams/trans_stream.rs: TransStream::copy_wait"]}
{"id": "C170", "title": "The end of a visitor can always be brought to its local service", "statement": "Whatever has happened so far, once a visitor has ended its connection while the tunnel works, there is always a continuation made only of passing on what is already under way after which the connection to its local service is no longer served and the tunnel still works. In every endless schedule in which every task on the way gets its turn again and again, this happens by itself.", "quantifier": "every configuration and every history of visitors, local services, and the connection between client and server, and every endless fair schedule", "why_tests_cant": "it is about every reachable state, including those with every buffer full, and about the loss of a single notice", "anchors": ["src/trans/tcp.rs: TransTcp::process", "src/streams/center_client.rs: CenterClient::inner_serve", "src/streams/center_server.rs: CenterServer::inner_serve", "src/streams/trans_stream.rs: TransStream::copy_wait"]}
{"id": "C171", "title": "The body of a request reaches the handler that answers it", "statement": "Whichever location answers a request, be it the one that matches its path or one found for an entry of a try list, its file server, fixed answer or upstream server gets the whole body the client sent.", "quantifier": "every configuration of locations and try lists, every request, every history of kept connections and every answer of the upstream servers", "why_tests_cant": "it depends on which entries were asked before and on what their upstream servers answered", "anchors": ["src/reverse/http.rs: HttpConfig::deal_match_location", "src/reverse/location.rs: LocationConfig::deal_client, deal_reverse_proxy"]}
{"id": "C172", "title": "The entries of a try list are asked with the host the client named", "statement": "Every entry of a try list is looked up and handled with the host, method, scheme and address of the client's request; only the path differs.", "quantifier": "every configuration of locations and try lists, every request, every history of kept connections and every answer of the upstream servers", "why_tests_cant": "it depends on which entries were asked before and on what the proxy wrote into the request for them", "anchors": ["src/reverse/http.rs: HttpConfig::deal_match_location", "src/reverse/location.rs: LocationConfig::deal_reverse_proxy, is_match_rule"]}
{"id": "C173", "title": "A mistake in a log pattern is shown at its place and spoils nothing else", "statement": "If a log pattern, fixed answer or header format contains a mistake (a single bracket, a wrong backslash, an unknown name, a missing argument, an unclosed brace), the output has {ERROR: reason} at that place, and everything else in the pattern is printed as if the mistake were not there.", "quantifier": "every pattern with any number of mistakes anywhere, every request", "why_tests_cant": "the parser works from left to right over arbitrary text, and what a mistake does to the rest depends on everything after it", "anchors": ["src/log/pattern/parser.rs: Parser::next, argument, text", "src/log/pattern/mod.rs: From<Piece> for Chunk, Chunk::encode", "src/helper.rs: Helper::format_req"]}
{"id": "C174", "title": "Every request to a limited location is decided, whatever the settings of the limits", "statement": "Whatever rates, bursts, periods and table sizes are configured, every request to a limited location is passed, delayed or refused by its own zone according to these numbers, and what one client sends to one zone never keeps other requests from being decided.", "quantifier": "every configuration of limits (all 64-bit settings), every history of loads and requests of any clients", "why_tests_cant": "it concerns sums and products near the end of the number range and the state of a lock shared by all requests after a failure", "anchors": ["src/data/limit_req_data.rs: LimitReqData::inner_recv_new_req, try_remove_unuse, recv_new_req, cache"]}
{"id": "C175", "title": "A field of a log format shows what it names", "statement": "Every field that can be named in a log format, fixed answer or header value shows what its name says about the request and its answer: method, path, host, address of the client, the status of the answer, the level of the log, the time taken, the upstream server used.", "quantifier": "every format containing the field anywhere, at every width, every request and surrounding", "why_tests_cant": "it ranges over all formats around a field and over all requests, and some fields depend on what happened after the request was read", "anchors": ["src/log/pattern/mod.rs: FormattedChunk::encode", "src/helper.rs: Helper::format_req, log_acess", "src/log/proxy_record.rs: ProxyRecord"]}
{"id": "C176", "title": "A timeout may be written as a plain number", "statement": "A timeout written in the configuration as a number instead of a text means that many seconds, in TOML and in YAML files alike, and a number that is no timeout is reported as a mistake.", "quantifier": "every number a configuration file can contain, both formats", "why_tests_cant": "the way a number takes into the program depends on its sign, size and the format of the file", "anchors": ["src/config/mod.rs: DisplayFromStrOrNumber", "src/config/duration.rs: ConfigDuration::from_str", "src/reverse/common.rs: CommonConfig", "src/arg.rs: read_config_from_path"]}
{"id": "C177", "title": "A visitor can always be connected to its service", "statement": "Whatever traffic there has been, as long as the tunnel between client and server works, a visitor accepted by the server can still be connected to the local service its mapping names: no queue, no other visitor's unread data and no earlier history of the tunnel can shut it out (when connecting to the local service itself is refused because of earlier failures is the subject of C214), and nothing more than the passing on of what is under way is needed.", "quantifier": "every history of visitors, bytes, ends and schedules of the tunnel, every visitor in it", "why_tests_cant": "a test shows that some visitors are connected; that no combination of full queues and slow visitors blocks one for good ranges over all histories", "anchors": ["src/streams/center_server.rs: CenterServer::inner_serve", "src/streams/center_client.rs: CenterClient::inner_serve", "src/trans/tcp.rs: TransTcp::process"]}
{"id": "C178", "title": "A SOCKS5 client is told where to send its datagrams", "statement": "A SOCKS5 client that has got a UDP association is told an address at which its datagrams come to the association's socket.", "quantifier": "every configured address, every client's handshake and every port the system chooses", "why_tests_cant": "the address told is built from the configuration, the socket is bound elsewhere; they must agree for every configuration", "anchors": ["src/proxy/socks5.rs: ProxySocks5::udp_execute_assoc, tcp_write_reply, encode_socket_addr"]}
{"id": "C179", "title": "Datagrams can be sent to any address", "statement": "A datagram that a SOCKS5 client sends through its association is sent on to the address it names, whether this is an IPv4 or an IPv6 address, and leaves the association at work.", "quantifier": "every datagram, address, and state of the association", "why_tests_cant": "the family of the address may come from a name service, and the effect is on all later datagrams", "anchors": ["src/proxy/socks5.rs: ProxySocks5::udp_transfer, udp_handle_request"]}
{"id": "C180", "title": "Every byte arrives while everybody gets its turn", "statement": "While both ends of the tunnel and a visitor's connection last and every task gets its turn again and again, each byte a visitor or its local service sends is eventually written out on the other side.", "quantifier": "every endless schedule of the whole system that is fair to the tasks on the way, with any other visitors, at every time", "why_tests_cant": "eventual delivery is a statement about endless schedules with other visitors competing for the same channels; a test sees finitely many steps of a few schedules", "anchors": ["src/streams/center_server.rs: CenterServer::inner_serve", "src/streams/center_client.rs: CenterClient::inner_serve", "src/streams/trans_stream.rs: TransStream::copy_wait"]}
{"id": "C181", "title": "A client that lost its tunnel comes back", "statement": "Whenever a tunnel client's connection to the server is lost, it tries to connect again one second later, and one second after each attempt that failed, until it is connected; it then introduces itself as on the first connection.", "quantifier": "every history of connections, losses, failed attempts and messages from the server, and every time that passes meanwhile", "why_tests_cant": "a loss can happen at any point of any history; that a client never gives up is a statement about all histories", "anchors": ["src/streams/center_client.rs: CenterClient::serve, inner_serve, inner_connect", "src/check/health.rs: HealthCheck::connect"]}
{"id": "C182", "title": "An upstream server gets the client's request with the rules for requests applied", "statement": "Each request that the reverse proxy hands to an upstream server is the request the client sent, with the location's header rules for requests applied and nothing else changed, whether it is the first on its connection or a later one.", "quantifier": "every location with proxy_url, every list of header rules, every sequence of requests on a client's connection, every choice of server and every outcome of connecting and asking", "why_tests_cant": "what is sent depends on the history of the connection", "anchors": ["src/reverse/location.rs: LocationConfig::deal_reverse_proxy, deal_client", "src/reverse/http.rs: HttpConfig::deal_match_location", "src/helper.rs: Helper::rewrite_request"]}
{"id": "C183", "title": "The header rules of a proxy mapping apply to all that passes it", "statement": "Each HTTP request that a visitor sends through a mapping of mode proxy reaches its target with the mapping's rules for requests applied once, and the target's answer comes back with the rules for answers applied once.", "quantifier": "every list of rules, every sequence of requests on a visitor's connection, every outcome of connecting and asking", "why_tests_cant": "unbounded sequences; the first request and the later ones take different ways through the code", "anchors": ["src/proxy/http.rs: Operate::operate, deal_request, deal_response", "src/streams/center_client.rs: CenterClient::inner_serve"]}
{"id": "C184", "title": "Every listener keeps accepting", "statement": "A connection that is established with any address the service listens on is accepted, once and in the order of its listener, however busy the other addresses are and whatever errors accepting has given before.", "quantifier": "every number of listeners, every endless schedule of connections and errors coming up and of the random choices of the main task", "why_tests_cant": "endless schedules; the order in which listeners are polled shows only under load, errors of accept only when resources run out", "anchors": ["src/wmcore.rs: WMCore::tcp_listen_work, multi_tcp_listen_work, multi_udp_listen_work, run_serve"]}
{"id": "C185", "title": "No entry of an address list covers an address outside its network", "statement": "Whatever entries an allow or deny list has, an entry never counts for a client address outside its network: not for an address of the other family, and not for one that differs within the prefix.", "quantifier": "every entry with a prefix length up to the length of its address, every address", "why_tests_cant": "2^128 addresses and all prefix lengths", "anchors": ["src/config/ip_sets.rs: IpGate::contains, IpSets::contains"]}
{"id": "C186", "title": "Header rules leave all other headers alone", "statement": "Applying header rules to a request or an answer changes no header that no rule for this side names, and keeps their order; rules for the other side have no effect; after an add rule the value is there besides the earlier ones; after a remove rule the header is absent; a default rule sets the value exactly if the header was absent.", "quantifier": "every list of rules and every list of headers", "why_tests_cant": "unbounded lists of rules and headers", "anchors": ["src/helper.rs: Helper::rewrite_header, rewrite_request, rewrite_response"]}
{"id": "C187", "title": "Decisions of a request limit depend on the client's own requests only", "statement": "As long as fewer clients ask than the table of a zone has room for, the decision on each request depends only on its number since that client's last pause longer than the period, never on other clients.", "quantifier": "every zone with a positive rate and every history of requests by any clients at any times", "why_tests_cant": "unbounded histories and times", "anchors": ["src/data/limit_req_data.rs: LimitReqData::recv_new_req"]}
{"id": "C188", "title": "The address connected is the first that is up and answers", "statement": "When connecting to a list of different addresses of which none hangs: the address connected is the first one that is not regarded as down and answers; if there is none the result is an error; exactly those not down, up to the connected one, are tried; and exactly their outcomes are recorded.", "quantifier": "every list of different addresses, every state of the records, all answers and times", "why_tests_cant": "unbounded lists and histories", "anchors": ["src/check/health.rs: HealthCheck::connect"]}
{"id": "C189", "title": "A request goes to the first matching location, once and unchanged", "statement": "The server block is the first whose name is the host (any if the host is empty), else the last. What is done for a request begins with the first location of that block that accepts it, and without a try list concerns that location alone. If that location has a handler, no try list and no kept connection, admits the client and its limit does not refuse, its handler gets the request once and as it is, and the client gets the handler's answer. If no location accepts the request, nothing is done and the answer is 404.", "quantifier": "every configuration, request and state of limits and upstream servers", "why_tests_cant": "unbounded configurations and requests", "anchors": ["src/reverse/http.rs: HttpConfig::inner_operate_by_http, deal_match_location", "src/reverse/location.rs: LocationConfig::deal_request"]}
{"id": "C190", "title": "No handler gets a request of a client its location refuses", "statement": "Through every chain of try lists, and also over kept connections, the handler of a location gets a request of a client with a known address only if that address is allowed and not denied by the location and its limit, asked just before, did not refuse. If the first location that accepts the request refuses the address or its limit refuses, no handler gets the request, whatever its try list; and the answer is 503 if the limit does not refuse.", "quantifier": "every configuration, every request with a client address, every history", "why_tests_cant": "unbounded chains of try lists and histories", "anchors": ["src/reverse/http.rs: HttpConfig::deal_match_location", "src/reverse/limit_req.rs: LimitReqMiddleware::process_request"]}
{"id": "C191", "title": "SOCKS5 clients are served according to their credentials", "statement": "With username and password configured (neither empty nor longer than 255 bytes), a client that offers the password method is connected to its target if it sends them, and is told that it is refused, with nothing connected, if it sends others. Unless both are configured no credentials are asked for. A client whose target cannot be connected is told so. All this in whatever pieces the bytes arrive.", "quantifier": "every configuration, every sequence of bytes and pieces, every behaviour of the network", "why_tests_cant": "all splits of all byte sequences", "anchors": ["src/proxy/socks5.rs: ProxySocks5::process"]}
{"id": "C192", "title": "The first byte decides between SOCKS5 and HTTP, and no byte is lost", "statement": "A client whose first byte is 5 is served by SOCKS5 exactly if that is enabled and never by HTTP; a client with another first byte is served by HTTP exactly if http or https is enabled; and the handler sees all bytes of the client from the first one on, in order.", "quantifier": "every set of enabled protocols, all bytes and all pieces they arrive in", "why_tests_cant": "all splits of all byte sequences", "anchors": ["src/proxy/server.rs: ProxyServer::deal_proxy", "src/proxy/http.rs: ProxyHttp::process"]}
{"id": "C193", "title": "UDP clients are kept apart, and nothing of theirs waits for ever", "statement": "What is sent to the upstream server through a client's socket are datagrams of that client only. What clients get is, in order and each at most once, what came to the sockets opened for them; nothing of it is lost if sending to clients never fails. While no task ends and the upstream has an address, each datagram of a client was sent on or waits, and as long as one waits some step of the program goes on with it.", "quantifier": "every history of datagrams, replies, timeouts and failures", "why_tests_cant": "unbounded histories", "anchors": ["src/reverse/stream.rs: StreamUdp"]}
{"id": "C194", "title": "Exactly the configured HTTP addresses are listened on", "statement": "When the service starts, each address of the HTTP section has exactly one listener and no other address has one. A listener has the kind - with or without TLS - of the first mention of its address. The service starts if all addresses can be opened, every certificate given can be used, and every block with TLS addresses has one.", "quantifier": "every configuration and every behaviour of the operating system", "why_tests_cant": "unbounded configurations", "anchors": ["src/reverse/http.rs: HttpConfig::bind"]}
{"id": "C195", "title": "TLS on the tunnel is exactly as configured where it is used", "statement": "The tunnel is accepted over TLS only if this is asked for and then with the configured certificates and key, which fit together, demanding a certificate of the client exactly if this is asked for. A client connects over TLS only if this is asked for, shows the configured certificates exactly if it is to prove its identity, and trusts those of the configured certificates that can serve as roots.", "quantifier": "every configuration and all contents of the files", "why_tests_cant": "all files and combinations of settings", "anchors": ["src/option.rs: ProxyConfig::get_tls_accept, get_tls_request"]}
{"id": "C196", "title": "A proxied request is never sent to a server of another group", "statement": "A request to a location with a proxy_url is sent to a configured server of the group that the URL's host names, in the innermost block that has one, or to that host itself - to the latter, at the URL's port, if no group has that name. Whatever the weights, records and random draws, it is sent nowhere else.", "quantifier": "every configuration, every state of the records, every random draw", "why_tests_cant": "unbounded configurations and histories; random draws", "anchors": ["src/reverse/location.rs: LocationConfig::deal_reverse_proxy", "src/reverse/reverse_helper.rs: ReverseHelper::get_upstream_addr", "src/reverse/upstream.rs: UpstreamConfig::get_server_addr"]}
{"id": "C197", "title": "Timeouts are those given, each in its place", "statement": "The timeouts towards clients and towards upstream servers are exactly those given for the block and the location - connect, read, write, whole and keep-alive each in its own place -, and there are none if none is given.", "quantifier": "every combination of given and missing values", "why_tests_cant": "all combinations and values", "anchors": ["src/reverse/common.rs: CommonConfig::build_client_timeout, build_proxy_timeout"]}
{"id": "C198", "title": "Every request is answered, under this program's name", "statement": "Every request gets an answer. If it was served, the answer has the status it was served with, the header server names this program, once, whatever the upstream server said, and no other header is touched; else the status is 408 or 500. A location without anything to serve answers 500.", "quantifier": "every configuration, every request, every behaviour of upstream servers", "why_tests_cant": "unbounded configurations, chains of try lists and headers", "anchors": ["src/reverse/http.rs: HttpConfig::operate, inner_operate"]}
{"id": "C199", "title": "A proxy built by a program has the settings of the last calls", "statement": "Each setting has the value of the last call that gives it and its default if none does; the mappings are those given, all of them, in order; a protocol is on exactly if it is in the last call of flag (HTTP, HTTPS and SOCKS5 if there is none) or in a call of add_flag after it.", "quantifier": "every sequence of calls", "why_tests_cant": "unbounded sequences of calls", "anchors": ["src/option.rs: Builder, ProxyConfig::builder"]}
{"id": "C200", "title": "What an entry of a try list stands for never depends on earlier requests", "statement": "An entry of one word stands for the request printed in that format; an entry of three or more words with a valid regular expression stands for the request printed in the format with all matches replaced. Whatever was asked before, the result is that of a process which has kept nothing; and what is kept is bounded: no text is kept twice and none that was not asked for.", "quantifier": "every entry, request and history of requests", "why_tests_cant": "unbounded histories filling the caches", "anchors": ["src/helper.rs: Helper::format_req_may_regex, inner_oper_regex, try_cache_regex, format_req"]}
{"id": "C201", "title": "What a local service sends reaches its visitor, completely and in order", "statement": "Through a tunnel of fewer than 2^23 visitors, all of whose messages are well formed and under ids of their own: what is written to a visitor is always a beginning of what the local service of its stream sent; once nothing is under way it is all of it; and while both connections and the tunnel last, in every endless schedule in which every part on the way gets its turn again and again, every byte the service has sent is written to the visitor at some later time, whatever all other visitors and services do.", "quantifier": "every configuration, every schedule of all tasks and both ends, endless ones included, every splitting of bytes on the network", "why_tests_cant": "unbounded and endless schedules of many tasks", "anchors": ["src/streams/center_server.rs: CenterServer::inner_serve", "src/streams/center_client.rs: CenterClient::inner_serve", "src/streams/trans_stream.rs: TransStream::copy_wait"]}
{"id": "C202", "title": "A tunnelled connection is ended only for a cause", "statement": "The tunnel ends a visitor's connection only if the connection to its local service has ended, or none was opened for it, or the tunnel itself has ended; and the connection to a local service only if the visitor's has ended or the tunnel itself. Once the connection to the local service has ended and nothing is under way, the visitor's connection is no longer served.", "quantifier": "every configuration and every schedule of all tasks and both ends", "why_tests_cant": "unbounded schedules of many tasks", "anchors": ["src/streams/center_server.rs: CenterServer::inner_serve", "src/streams/center_client.rs: CenterClient::inner_serve", "src/streams/trans_stream.rs: TransStream::copy_wait"]}
{"id": "C203", "title": "Reading a tunnelled stream yields all that arrived, in order, and its end is told", "statement": "Whatever the buffer sizes and arrival times, the bytes returned by reads are a beginning of what arrived; while nothing has ended the stream a reader that goes on reading gets all of it; and once the stream or the tunnel has ended a reader that goes on reading is told the end.", "quantifier": "every sequence of arrivals and reads, all buffer sizes", "why_tests_cant": "unbounded sequences", "anchors": ["src/streams/virtual_stream.rs: VirtualStream::poll_read"]}
{"id": "C204", "title": "No connection is lost between its acceptance and its handling", "statement": "At every listener the connections accepted, followed by those that wait, are those that came there, in their order. Of those that have arrived each is still to be taken, the one waited for, or handed on, once. The main task stops only if it was asked to, and from then on hands nothing on.", "quantifier": "every schedule of connections, errors, random choices and requests to stop", "why_tests_cant": "unbounded schedules", "anchors": ["src/wmcore.rs: WMCore::run_serve, tcp_listen_work, multi_tcp_listen_work"]}
{"id": "C205", "title": "A client that lost its tunnel starts to connect again after exactly one second, and introduces itself", "statement": "After each loss of the connection and each failed attempt the client starts to connect again when exactly one second has passed, whatever happened before and happens meanwhile (whether the server is really contacted then is part of C181); an attempt ends in a connection on which the client serves, or is noted as failed; and on every connection the first bytes written are the client's introduction.", "quantifier": "every history of losses, failures and successes", "why_tests_cant": "unbounded histories", "anchors": ["src/streams/center_client.rs: CenterClient::serve"]}
{"id": "C206", "title": "The client's end of the tunnel looks at every message and waits for no stream", "statement": "Whatever the messages and however the network splits them, the client looks at exactly the messages that were sent, in order, and hands each message for an open stream over, or discards it, at once: no stream, however slow, holds up the loop.", "quantifier": "every sequence of well-formed messages and every splitting, every schedule", "why_tests_cant": "all splittings; unbounded schedules", "anchors": ["src/streams/center_client.rs: CenterClient::inner_serve"]}
{"id": "C207", "title": "Access logs name only requests that were let in", "statement": "Whatever is written to an access log while a request is handled was written by a location of the chosen server that admits the client and whose limit, if it has one, did not refuse: the line of the request in that location's format, to that location's log. Once the logs are opened, a record goes to the file of its log and nowhere else if the level shows it, and is dropped otherwise.", "quantifier": "every configuration, request and history", "why_tests_cant": "unbounded chains of try lists and configurations", "anchors": ["src/reverse/location.rs: LocationConfig::deal_request", "src/helper.rs: Helper::log_acess, try_init_log"]}
{"id": "C208", "title": "A client gets exactly the upstream server's answer to its own request", "statement": "Each answer a client gets from a location with proxy_url is either the answer the upstream server gave to that very request, with status and body unchanged and headers unchanged apart from the location's rules for answers, or an error of the proxy itself: 404 if the kept connection was closed before the request, 503 if it ended after it. A request that the server answered is never answered otherwise.", "quantifier": "every sequence of requests on a client's connection, every choice of servers, every history of connections made, kept and lost", "why_tests_cant": "answers of earlier requests could be taken for those of later ones only in some orders of closing and reusing connections", "anchors": ["src/reverse/http.rs: inner_operate", "src/reverse/location.rs: deal_reverse_proxy, deal_client"]}
{"id": "C209", "title": "The command stop ends the service and no other process", "statement": "The command stop, used without arguments, sends its signal to the running process of this program that was started last, and never to a process of another program.", "quantifier": "every history of processes of this and other programs starting, ending properly or not, of numbers used again and of earlier stops", "why_tests_cant": "depends on how earlier processes ended and on which numbers the operating system gives out", "anchors": ["src/arg.rs: kill_process_by_id, parse_env", "src/main.rs: main", "src/helper.rs: Helper::try_create_pidfile, try_remove_pidfile"]}
{"id": "C210", "title": "An end of the tunnel whose connection fails ends in order", "statement": "When writing to the connection of a tunnel fails, the end of the tunnel notices it and ends in order, closing its streams. Nothing that the peer sends and no failure of the connection makes an end crash.", "quantifier": "every history of an end of the tunnel, every content sent by the peer, every moment at which writing fails", "why_tests_cant": "depends on what is waiting to be written at the moment of the failure, and on arbitrary bytes of the peer", "anchors": ["src/streams/center_server.rs: CenterServer::inner_serve", "src/streams/center_client.rs: CenterClient::inner_serve"]}
{"id": "C211", "title": "Clients that are not let in do not use up a request limit", "statement": "A request of a client that the allow and deny lists of a location do not let in leaves the location's request limit as it is; such clients cannot keep those that are let in from being served.", "quantifier": "every location with access lists and a limit, every sequence of requests of clients that are let in and that are not", "why_tests_cant": "the effect shows only after as many refused clients as the limit's table has places", "anchors": ["src/reverse/http.rs: deal_match_location", "src/reverse/limit_req.rs: LimitReqMiddleware::process_request", "src/data/limit_req_data.rs: LimitReqData::inner_recv_new_req"]}
{"id": "C212", "title": "Few upstream connections are kept for a client", "statement": "For one connection of a client, at most one upstream connection is kept for each location with a proxy, and none for other locations; so their number never exceeds that of these locations.", "quantifier": "every configuration, every sequence of requests on the connection, every behaviour of the upstream servers", "why_tests_cant": "the number of requests on a connection is unbounded, and connections are kept, lost and made again in any order", "anchors": ["src/reverse/http.rs: deal_match_location, inner_operate", "src/reverse/location.rs: LocationConfig::clone_only_hash"]}
{"id": "C213", "title": "A server that does not work costs its group few requests", "statement": "While some servers of a group refuse connections and others accept them, requests to the group are served by those that accept; only a few requests are lost before a server that refuses is left out, however many come and in whatever order.", "quantifier": "every group, every set of servers that refuse, every sequence of requests and random draws, any number of requests under way at the same time", "why_tests_cant": "which requests are lost depends on the random draws, on the times of the attempts and on how requests overlap", "anchors": ["src/reverse/location.rs: deal_reverse_proxy", "src/reverse/upstream.rs: UpstreamConfig::get_server_addr", "src/check/health.rs: HealthCheck::connect_timeout, add_fall_down, is_fall_down"]}
{"id": "C214", "title": "A target that can be reached is connected, whatever others asked for before", "statement": "A client of the proxy (or a visitor of the tunnel) that asks for a target which accepts connections is connected to it; attempts made for others, however they went, make no difference.", "quantifier": "every history of attempts of any clients at any targets and times", "why_tests_cant": "records of earlier attempts are shared by all clients, so the outcome depends on the whole history", "anchors": ["src/check/health.rs: HealthCheck::connect, is_fall_down, add_fall_down", "src/proxy/http.rs: Operate::operate", "src/proxy/socks5.rs: ProxySocks5::process", "src/streams/center_client.rs: CenterClient::inner_serve"]}
{"id": "C215", "title": "What is kept about addresses is released", "statement": "What the program keeps about the addresses it connects to for its clients is released when they are no longer used, so its amount is bounded whatever addresses clients ask for.", "quantifier": "every history of attempts at any addresses, every time that passes", "why_tests_cant": "growth shows only over unbounded histories", "anchors": ["src/check/health.rs: HealthCheck::add_fall_down, add_rise_up, check_can_request"]}
{"id": "C216", "title": "What waits inside UDP forwarding is bounded", "statement": "However clients and servers send, the number of datagrams that wait inside UDP forwarding is bounded; what does not fit is dropped or not read.", "quantifier": "every history of datagrams, replies and sockets that take or do not take data", "why_tests_cant": "growth shows only over unbounded histories with sockets that stay blocked", "anchors": ["src/reverse/stream.rs: StreamUdp::process_data, poll_sender, poll_write"]}
{"id": "C217", "title": "A range asked for on condition is sent exactly if the condition holds", "statement": "A GET request for a range of a file with an If-Range header gets the range when the header is the file's current ETag or the time of its last change, and the whole file otherwise.", "quantifier": "every request with an If-Range header, every state of the file", "why_tests_cant": "interaction of several headers with every state of the file", "anchors": ["src/plugins/file_server.rs: FileServer::after_file_response, calc_etag, calc_lastmodifed"]}
{"id": "C218", "title": "Messages of the tunnel have a fixed form on the wire", "statement": "Every message appears on the wire as twelve bytes (length of the payload in three, kind in one, a zero, lower and upper half of the id in three and four, highest byte first) and its payload, with texts in UTF-8 behind their length; bytes of this form are read as this message. So ends of different builds understand each other.", "quantifier": "every message within the limits, whatever was waiting to be sent and whatever follows", "why_tests_cant": "encoder and decoder of one build agree with each other even if both are wrong; all messages", "anchors": ["src/prot/frame.rs: ProtFrameHeader::encode, ProtFrameHeader::parse_by_len, ProtFrame::encode", "src/prot/kind.rs: ProtKind::encode, ProtKind::new", "src/prot/create.rs", "src/prot/close.rs", "src/prot/data.rs", "src/prot/token.rs", "src/prot/mapping.rs", "src/prot/mod.rs: write_short_string, read_short_string", "src/config/header.rs: HeaderOper::to_u8, HeaderOper::from_u8"]}
{"id": "C219", "title": "What a user of a client sends can always be brought to the proxy of the server above", "statement": "Whatever has happened so far, while a user's connection, the proxy's task for its stream and both ends of the tunnel are at work, everything the user has sent can still be brought to the proxy of the server above: by the mere passing on of what is under way, without a further byte from anybody and without the end of any connection. So the tunnel never blocks for good in this direction.", "quantifier": "every history of users, proxy tasks and other streams of one tunnel connection, including slow and vanished tasks of other streams, full queues and a server whose loop waits", "why_tests_cant": "a deadlock or a loss needs one particular combination of full queues among unboundedly many", "anchors": ["src/streams/center_client.rs: CenterClient::inner_serve, CenterClient::deal_new_stream", "src/streams/center_server.rs: CenterServer::inner_serve", "src/streams/virtual_stream.rs: VirtualStream::poll_read", "src/streams/trans_stream.rs: TransStream::inner_copy_wait"]}
{"id": "C220", "title": "Few users wait at a client to be announced", "statement": "While the client's end of the tunnel works, at most ten of the users it has accepted have not been announced to the server above, and each turn of the loop for new users announces one of them.", "quantifier": "every history of users, messages and failures", "why_tests_cant": "bound on every reachable state", "anchors": ["src/streams/center_client.rs: CenterClient::new, CenterClient::inner_serve, CenterClient::deal_new_stream"]}
{"id": "C221", "title": "What the proxy above writes can always be brought to the user of the client", "statement": "Whatever has happened so far, while a user's connection and both ends of the tunnel are at work, everything the proxy of the server above has written on the user's stream can still be brought to the user: by the mere passing on of what is under way, without a further byte from anybody and without the end of any connection. This holds also after the proxy's task has ended.", "quantifier": "every history of users, proxy tasks and other streams of one tunnel connection, including slow and vanished tasks of other streams, full queues and a server whose loop waits", "why_tests_cant": "a deadlock or a loss needs one particular combination of full queues among unboundedly many", "anchors": ["src/streams/center_client.rs: CenterClient::inner_serve, CenterClient::deal_new_stream", "src/streams/center_server.rs: CenterServer::inner_serve", "src/streams/virtual_stream.rs: VirtualStream::poll_write", "src/streams/trans_stream.rs: TransStream::inner_copy_wait"]}
