{"id": "C01", "title": "String-buffer operations never leave their buffer", "statement": "Starting from a freshly created Deadwood string, any sequence of append/push/put/pop/fetch calls reads and writes only inside the allocated buffer, and every reachable string keeps its length within its capacity.", "quantifier": "every initial capacity, every finite sequence of operations with arbitrary arguments", "why_tests_cant": "Overflow depends on the interaction of capacity, length and offset over unbounded operation sequences; tests sample a few.", "anchors": ["deadwood-github/src/DwStr.c: dw_create, dw_addchar, dw_cstr_append, dw_append, dw_put_u8, dw_put_u16, dw_push_u16, dw_pop_u8, dw_pop_u16, dw_fetch_u8, dw_fetch_u16, dw_qrappend"]}
{"id": "C02", "title": "Pushed integers pop back unchanged", "statement": "If pushing a 16-bit number (or adding a byte) onto a string succeeds, popping it returns the same number and leaves exactly the original contents; values larger than 16 bits come back truncated to their low 16 bits.", "quantifier": "every string and every number", "why_tests_cant": "Covers all 2^16 values times all buffer states.", "anchors": ["deadwood-github/src/DwStr.c: dw_push_u16, dw_pop_u16, dw_put_u16, dw_put_u8, dw_pop_u8, dw_addchar"]}
{"id": "C03", "title": "Append is exact or has no effect", "statement": "Appending one string to another either makes the destination exactly old contents followed by the source contents, or reports failure and leaves the destination contents unchanged; it fails exactly when the result would not fit.", "quantifier": "every pair of strings and capacities", "why_tests_cant": "Boundary lengths at every capacity.", "anchors": ["deadwood-github/src/DwStr.c: dw_append, dw_cstr_append, dw_addchar, dw_substr_append"]}
{"id": "C04", "title": "String comparison decides equality of contents", "statement": "Comparing two strings reports same exactly when their byte contents are identical, whatever their capacities or the stale bytes beyond their length.", "quantifier": "every pair of strings", "why_tests_cant": "Universal over contents and stale memory.", "anchors": ["deadwood-github/src/DwStr.c: dw_issame"]}
{"id": "C05", "title": "Comma-separated lists split completely, last item first", "statement": "Repeatedly popping the last item of a comma-separated list yields every item in reverse order, each exactly once, and then stops; joining the items with commas restores the original list (a list that starts with a comma loses its empty first item).", "quantifier": "every list contents without size bound", "why_tests_cant": "Needs induction over the number of separators and item contents.", "anchors": ["deadwood-github/src/DwStr.c: dw_rfind, dw_qspop, dw_zap_lws", "deadwood-github/src/DwSys.c: pop_last_item"]}
{"id": "C06", "title": "Cache file names cannot leave the directory", "statement": "After sanitising the cache file name, the name contains only lower-case letters, slash, dash and underscore (every other byte, in particular every dot, is replaced by an underscore) with length preserved; names made of allowed characters are unchanged.", "quantifier": "every file name", "why_tests_cant": "All byte strings.", "anchors": ["deadwood-github/src/DwStr.c: dw_filename_sanitize"]}
{"id": "C07", "title": "Block-hash file names cannot traverse upward", "statement": "After the second file-name sanitiser, the name never contains a path component that ends in a dot before a slash (so neither \"./\" nor \"../\" occurs), and only allowed characters remain.", "quantifier": "every file name", "why_tests_cant": "All byte strings, all positions.", "anchors": ["deadwood-github/src/DwStr.c: dw_filename_sani_two"]}
{"id": "C08", "title": "Rotation is a permutation", "statement": "Rotating the bytes between two offsets of a string only permutes bytes inside the given region: length is kept, bytes outside the region are unchanged and the region is cut at the split point and its two halves exchanged.", "quantifier": "every string and every triple of offsets", "why_tests_cant": "All offsets and contents.", "anchors": ["deadwood-github/src/DwStr.c: dw_rotate"]}
{"id": "C09", "title": "Human-readable names convert faithfully to wire form", "statement": "Converting a dotted name to wire form succeeds only for names with a trailing dot whose labels are 1..63 bytes (or the root/wildcard special forms), the result is a well-formed label sequence ending in the root label, and printing the labels joined by dots gives the input back.", "quantifier": "every input byte string", "why_tests_cant": "Unbounded label structure.", "anchors": ["deadwood-github/src/DwStr.c: dw_dnsname_delim_convert, dw_dnsname_convert, dw_ends_in_dot"]}
{"id": "C10", "title": "Chopping labels walks exactly the ancestor domains", "statement": "Removing the first label of a query key yields the key of the parent domain with the same record type; iterating it visits every ancestor and reaches the root after as many steps as there are labels, where it stops.", "quantifier": "every well-formed name and type", "why_tests_cant": "Induction over label count.", "anchors": ["deadwood-github/src/DwStr.c: dw_dnslabel_chop", "deadwood-github/src/DwSocket.c: get_upstream_ns"]}
{"id": "C11", "title": "Question extraction only accepts well-formed names", "statement": "Extracting the question from a packet either fails or returns labels of 1..63 bytes, no control characters, a terminating root label and a query type that is not a private type; it is exactly the bytes at that place of the packet and no byte outside the packet is read.", "quantifier": "every packet, offset and packet length", "why_tests_cant": "Attacker-controlled packets of every shape.", "anchors": ["deadwood-github/src/DwStr.c: dw_get_dname, dw_get_dname_type"]}
{"id": "C12", "title": "Skipping a name finds its end", "statement": "Skipping a (possibly compressed) name returns the offset just after it, or an error; it always terminates and never reads outside the buffer of the string.", "quantifier": "every packet string and offset", "why_tests_cant": "Termination and memory safety on adversarial packets.", "anchors": ["deadwood-github/src/DwStr.c: dw_get_dn_end"]}
{"id": "C13", "title": "Extracted cache lifetime is bounded", "statement": "The time to live computed for a packet is either an error or between 0 and 31536000 seconds, never exceeds the smallest TTL on the followed chain (after the documented minimum), and is computed without reading outside the packet string.", "quantifier": "every packet string, every record count", "why_tests_cant": "Adversarial record sequences.", "anchors": ["deadwood-github/src/DwStr.c: dw_get_a_dnsttl", "deadwood-github/src/DwUdpSocket.c: cache_dns_reply"]}
{"id": "C14", "title": "Decimal numbers parse to their value", "statement": "Parsing a numeric string gives the value of its leading digits in the given base when that value fits in 32 bits (0 when there are no digits), and an error when the digits are followed by a letter or digit outside the base, or when the offset is at or past the end.", "quantifier": "every digit string", "why_tests_cant": "Unbounded digit strings.", "anchors": ["deadwood-github/src/DwStr.c: dw_atoi"]}
{"id": "C15", "title": "The DNS cache behaves as a key-value map", "statement": "After any history of insertions, lookups and removals, a lookup returns exactly the most recently inserted unremoved, unevicted value for that key, and nothing for other keys, regardless of hash collisions.", "quantifier": "every hash function, table size and operation history", "why_tests_cant": "Collision patterns and histories are unbounded.", "anchors": ["deadwood-github/src/DwHash.c: dwh_add, dwh_get, dwh_zap, dwh_place_new, dwh_grep"]}
{"id": "C16", "title": "Expired entries are never served as fresh", "statement": "A normal cache lookup never returns an entry whose time to live has passed (or whose expiry lies implausibly far in the future), while a lookup that asks to ignore expiry still returns it; an entry inserted with lifetime t is served until t seconds (clamped to 30..63072000) passed.", "quantifier": "every time, lifetime and history", "why_tests_cant": "Clock values and histories unbounded.", "anchors": ["deadwood-github/src/DwHash.c: dwh_get, dwh_init_element, dwh_get_ttl"]}
{"id": "C17", "title": "The cache is bounded and evicts the least recently used entry", "statement": "The number of evictable entries always stays below the configured maximum; when an insertion needs room the entry removed is the one used longest ago.", "quantifier": "every operation history", "why_tests_cant": "Invariant over unbounded histories.", "anchors": ["deadwood-github/src/DwHash.c: dwh_place_new, dwh_fila_new, dwh_fila_zap, dwh_fila_fetch"]}
{"id": "C18", "title": "Configured (immutable) entries are permanent", "statement": "Entries added as permanent (root, upstream, ip4/ip6 entries) are never evicted, expire or get replaced or removed by any later operation.", "quantifier": "every later operation history", "why_tests_cant": "Unbounded histories.", "anchors": ["deadwood-github/src/DwHash.c: dwh_add, dwh_zap, dwh_place_new"]}
{"id": "C19", "title": "Saving and loading the cache preserves it", "statement": "Writing the cache to a file and reading it back (with the same capacity) gives a cache holding the same expirable key/value/expiry triples in the same recency order.", "quantifier": "every cache state that can be saved", "why_tests_cant": "Round-trip law over all states.", "anchors": ["deadwood-github/src/DwHash.c: dwh_write_hash, dwh_read_hash, dwh_put_hash_element, dwh_get_hash_element"]}
{"id": "C20", "title": "A damaged cache file loads only a prefix of good entries", "statement": "Reading a truncated file gives exactly the entries completely present before the cut; reading any byte sequence terminates and yields entries with nonempty key, value and expiry at least 2.", "quantifier": "every byte sequence, every truncation point", "why_tests_cant": "All crash points and corruptions.", "anchors": ["deadwood-github/src/DwHash.c: dwh_read_hash, dwh_get_dwstr, dwh_get_int32, dwh_get_int64"]}
{"id": "C21", "title": "Dictionaries are maps that grow without loss", "statement": "After any sequence of additions a dictionary lookup returns the last value added for the key; automatic growth never loses, duplicates or changes an entry.", "quantifier": "every sequence of additions, every hash function", "why_tests_cant": "Growth is triggered only at particular sizes and chains.", "anchors": ["deadwood-github/src/DwDict.c: dwd_add, dwd_fetch", "deadwood-github/src/DwHash.c: dwh_hash_autogrow"]}
{"id": "C22", "title": "Iterating a dictionary visits every key exactly once", "statement": "Starting without a key and repeatedly asking for the next key visits each key of the dictionary exactly once and then ends.", "quantifier": "every dictionary contents", "why_tests_cant": "Depends on bucket layout.", "anchors": ["deadwood-github/src/DwDict.c: dwd_nextkey"]}
{"id": "C23", "title": "Private addresses are filtered exactly as configured", "statement": "With the filter on, an answer address is rejected exactly when it lies in the documented private ranges or in the block list; with the filter off only the block list counts.", "quantifier": "every IPv4 address and block list", "why_tests_cant": "2^32 addresses times block lists.", "anchors": ["deadwood-github/src/DwDnsStr.c: dwc_check_ip, dwc_has_bad_ip"]}
{"id": "C24", "title": "Lower-casing a query is exact", "statement": "Lower-casing maps every ASCII upper-case letter of the name to lower case, changes nothing else, never touches the query type, and is idempotent.", "quantifier": "every query string", "why_tests_cant": "All byte strings.", "anchors": ["deadwood-github/src/DwDnsStr.c: dwc_lower_case"]}
{"id": "C25", "title": "TTL ageing only rewrites TTL fields", "statement": "Ageing a cached answer changes no byte except the four TTL bytes of answer records, and sets those to max(5, remaining lifetime).", "quantifier": "every cached packet and remaining lifetime", "why_tests_cant": "All packet layouts.", "anchors": ["deadwood-github/src/DwDnsStr.c: dwc_ttl_age"]}
{"id": "C26", "title": "Record rotation only permutes answers", "statement": "Rotating the answers of a cached packet preserves the multiset of answer records and leaves everything else unchanged.", "quantifier": "every cached packet", "why_tests_cant": "All layouts.", "anchors": ["deadwood-github/src/DwDnsStr.c: dwc_rr_rotate, dwc_rotate_offsets"]}
{"id": "C27", "title": "Decompression terminates on every packet", "statement": "Decompressing a name follows strictly bounded pointer chains, terminates on every input including pointer loops, never reads outside the memory of the packet, and a successful result is a sequence of labels of at most 63 bytes.", "quantifier": "every packet string", "why_tests_cant": "Adversarial pointer graphs.", "anchors": ["deadwood-github/src/DwCompress.c: dwc_decomp_dname, dwc_decomp_offset"]}
{"id": "C28", "title": "Compressed names decompress to the same name", "statement": "Any name that the compressor writes decompresses back to the original name (ignoring letter case).", "quantifier": "every name and every preceding packet contents", "why_tests_cant": "Pointers depend on the whole previous packet.", "anchors": ["deadwood-github/src/DwCompress.c: dwc_compress_dlabels, dwc_decomp_dname, dwc_seek_comp_pointer"]}
{"id": "C29", "title": "Name comparison is exactly ASCII-case-insensitive equality", "statement": "Comparing two labels (names) reports same exactly when they are equal after mapping ASCII letters to lower case; it is an equivalence relation.", "quantifier": "every pair of labels/names", "why_tests_cant": "All byte strings.", "anchors": ["deadwood-github/src/DwCompress.c: dwc_label_same, dwc_dname_same", "deadwood-github/src/DwRecurse.c: dwx_dname_issame"]}
{"id": "C30", "title": "Bailiwick check is the suffix relation", "statement": "A name is reported in bailiwick exactly when it is a descendant-or-equal (label-wise, case-insensitive suffix) of the bailiwick name.", "quantifier": "every pair of names", "why_tests_cant": "Cache-poisoning protection for all names.", "anchors": ["deadwood-github/src/DwCompress.c: dwc_in_bailiwick", "deadwood-github/src/DwRecurse.c: dwx_string_in_bailiwick"]}
{"id": "C31", "title": "Every name server is eventually tried", "statement": "Starting from any initial choice, successive retries cycle through all usable servers of a list of fewer than 173 servers before any repeats.", "quantifier": "every list length and starting point", "why_tests_cant": "All cycles.", "anchors": ["deadwood-github/src/DwRecurse.c: dwx_choose_ns"]}
{"id": "C32", "title": "Recursion is bounded", "statement": "The chain of glueless/CNAME sub-queries a query may start has bounded depth; deeper chains are refused.", "quantifier": "every delegation graph including loops", "why_tests_cant": "Adversarial loops.", "anchors": ["deadwood-github/src/DwRecurse.c: dwx_do_glueless_new, dwx_make_cname_reply"]}
{"id": "C33", "title": "Access control admits exactly the listed networks", "statement": "A client is admitted exactly when its address matches address/mask of an entry of the list with the same address family.", "quantifier": "every list and address", "why_tests_cant": "All addresses.", "anchors": ["deadwood-github/src/DwSocket.c: check_ip_acl"]}
{"id": "C34", "title": "Netmasks are exact prefixes", "statement": "The mask made for prefix length n has exactly its first n bits set, for every n up to the address length, and writes only the address-length bytes.", "quantifier": "every prefix length and address length", "why_tests_cant": "All lengths and boundary cases.", "anchors": ["deadwood-github/src/DwSys.c: make_netmask"]}
{"id": "C35", "title": "An access-list entry grants only the written network", "statement": "Parsing an \"address/bits\" list item grants exactly the addresses sharing the first bits bits; a malformed item grants nothing.", "quantifier": "every item text", "why_tests_cant": "All malformed texts.", "anchors": ["deadwood-github/src/DwSocket.c: pop_ip_mask, set_ipmask_list"]}
{"id": "C36", "title": "Only plain recursive questions are accepted from clients", "statement": "A client packet is accepted exactly when it is a standard query with recursion desired, one question and no other records (or the one-OPT EDNS form which is handled by cutting), and the returned ID is the packet ID.", "quantifier": "every packet", "why_tests_cant": "2^96 headers.", "anchors": ["deadwood-github/src/DwSys.c: get_dns_qid"]}
{"id": "C37", "title": "Off-path replies are dropped", "statement": "A reply from upstream influences the cache or clients only if its ID equals the ID sent and its question equals (case-insensitively) the question sent.", "quantifier": "every packet and pending query", "why_tests_cant": "All spoofed packets.", "anchors": ["deadwood-github/src/DwUdpSocket.c: verify_dns_packet, get_remote_udp_packet"]}
{"id": "C38", "title": "Configuration numbers are clamped to their legal range", "statement": "Every numeric parameter taken from the configuration lies within its documented minimum and maximum, and legal values are used unchanged.", "quantifier": "every configured value", "why_tests_cant": "All 2^32 values.", "anchors": ["deadwood-github/src/DwSys.c: get_key_n", "deadwood-github/src/DwSocket.c: process_numeric_mararc_params"]}
{"id": "C39", "title": "IPv6 literals parse exactly", "statement": "An ip6 entry is accepted exactly when it has 32 hex digits (underscore meaning zero) plus optional dashes/spaces within 64 characters, and the synthesised AAAA record carries exactly these 16 bytes.", "quantifier": "every text", "why_tests_cant": "All texts.", "anchors": ["deadwood-github/src/DwSocket.c: make_synth_ip6, make_synth_record"]}
{"id": "C40", "title": "Included configuration file names cannot escape their directory", "statement": "The path opened for an execfile statement is relative, and contains no dot, so no parent-directory component.", "quantifier": "every file name text", "why_tests_cant": "All texts up to any length.", "anchors": ["deadwood-github/src/DwMararc.c: dwm_execfile"]}
{"id": "C41", "title": "Configuration lines are parsed by the documented grammar", "statement": "A configuration line is accepted only in the documented forms, and the variable name, index and value extracted are exactly the corresponding substrings of the line.", "quantifier": "every line", "why_tests_cant": "Regular-language property over all lines.", "anchors": ["deadwood-github/src/DwMararc.c: dwm_process_character, dwm_parse_line", "deadwood-github/src/DwMararc.h: dwm_machine"]}
{"id": "C42", "title": "Synthetic replies send only bytes that were written", "statement": "Every synthetic \"not there\" or RFC8482 reply sent to a client consists only of initialised bytes inside the reply buffer.", "quantifier": "every query packet", "why_tests_cant": "Over-read depends on lengths only.", "anchors": ["deadwood-github/src/DwUdpSocket.c: make_synth_answer, get_local_udp_packet, get_reply_from_cache"]}
{"id": "C43", "title": "Every waiting client gets the failure answer", "statement": "When an upstream query finally times out, every UDP client waiting on it is sent a SERVFAIL carrying its own ID.", "quantifier": "every number of merged in-flight clients", "why_tests_cant": "Needs several concurrent clients at time-out.", "anchors": ["deadwood-github/src/DwUdpSocket.c: server_fail_noreply, forward_remote_reply", "deadwood-github/src/DwSocket.c: handle_expired"]}
{"id": "C44", "title": "TCP reads are framed", "statement": "For every segmentation of the incoming TCP stream the query processed is exactly the length-prefixed message; partial reads never overrun the buffer.", "quantifier": "every segmentation of the stream", "why_tests_cant": "Unbounded schedules of partial reads.", "anchors": ["deadwood-github/src/DwTcpSocket.c: tcp_get_wanted, tcp_process_data, tcp_send_wanted, tcp_downstream_forward"]}
{"id": "C45", "title": "The block-hash file answers membership exactly", "statement": "Looking up a name in a block-hash file built by the tool from a list of names returns present for exactly the listed names (in lower case) and absent for every other string, even when hash values collide; and no file, however damaged, makes a lookup read outside it.", "quantifier": "every list of names and every name", "why_tests_cant": "Hash collisions.", "anchors": ["deadwood-github/src/DwBlockHash.c: DBH_BlockHasString, DBH_makeBlockHash", "deadwood-github/tools/blockhash/blockHashMake.c"]}
{"id": "C46", "title": "Truncation of a reply keeps one whole answer", "statement": "When a truncated upstream reply is salvaged, the packet is cut exactly after its first answer, and unusual packets are rejected.", "quantifier": "every packet", "why_tests_cant": "All layouts.", "anchors": ["deadwood-github/src/DwUdpSocket.c: get_rem_udp_packet_core"]}
{"id": "C47", "title": "The random generator is a pure function of its seed", "statement": "The stream of query IDs/ports is determined by the seed material and equals the RadioGatun[32] output for it; distinct seeds of the permitted length are absorbed injectively.", "quantifier": "every seed and every position of the stream", "why_tests_cant": "Infinite stream.", "anchors": ["deadwood-github/src/DwRadioGatun.c: dwr_init_rg, dwr_rng, dwr_beltmill"]}
{"id": "C48", "title": "In-flight table links each query to one upstream request", "statement": "At any time each in-flight question is mapped to at most one pending upstream request and requests are released when finished or expired, so slots are never leaked.", "quantifier": "every schedule of arrivals, replies and time-outs", "why_tests_cant": "Schedules unbounded.", "anchors": ["deadwood-github/src/DwUdpSocket.c: add_inflight, zap_inflight", "deadwood-github/src/DwSocket.c: reset_rem, find_free_remote, kill_expired"]}
{"id": "C49", "title": "A live string stays usable", "statement": "No string operation can turn a usable string into one whose length has reached its capacity (such a string is refused by every later call).", "quantifier": "every string, every operation with arbitrary arguments", "why_tests_cant": "Only specific length/capacity/offset coincidences break it; a test would have to hit them.", "anchors": ["deadwood-github/src/DwStr.c: dw_assert_sanity, dw_qrappend, dw_put_u8, dw_substr"]}
{"id": "C50", "title": "The recency ring is a faithful list", "statement": "The circular doubly linked recency list of the cache stays well formed after any sequence of node creations, removals and uses: following it visits exactly the live nodes, most recently used first, and the node chosen for eviction is the one used longest ago.", "quantifier": "every sequence of ring operations", "why_tests_cant": "Corner cases (one node, two nodes, removing head or tail) combine in unboundedly many orders.", "anchors": ["deadwood-github/src/DwHash.c: dwh_fila_new, dwh_fila_zap, dwh_fila_fetch"]}
{"id": "C51", "title": "Listed names are refused with their subdomains", "statement": "With a block file made from a list of names, a client query is refused exactly when its name, or the name made of its last one, two or three labels, is in the list (ignoring case).", "quantifier": "every list of names, every query name and type", "why_tests_cant": "All names and list contents; the interplay of the tool, the file format and the resolver.", "anchors": ["deadwood-github/src/DwUdpSocket.c: get_local_udp_packet", "deadwood-github/src/DwBlockHash.c: DBH_BlockHasString", "deadwood-github/tools/blockhash/blockHashMake.c"]}
{"id": "C52", "title": "Replies made from the cache are well formed", "statement": "A reply made from a cached answer carries the ID of the client, the very question the client asked, QR, RD and RA set and no other flag, the response code of the cached answer and its counts and records; if that would exceed 514 bytes there is no such reply, and a truncated answer gives TC and no records.", "quantifier": "every question, every cached answer and every ID", "why_tests_cant": "All sizes and kinds of answers.", "anchors": ["deadwood-github/src/DwUdpSocket.c: make_dns_header, make_dns_packet"]}
{"id": "C53", "title": "TCP places are given back", "statement": "A TCP client that sends nothing for the time-out loses its place, whether it stays connected or has gone.", "quantifier": "every schedule of the main loop", "why_tests_cant": "Needs long runs with idle and closed connections.", "anchors": ["deadwood-github/src/DwTcpSocket.c: tcp_get_wanted, kill_tcp_expired"]}
{"id": "C54", "title": "Results of sub-queries go to the request that wants them", "statement": "What a sub-query (for the address of a name server, or for the target of a CNAME) finds is only used for the request it was started for, even if that request has ended and its place has been given to another one.", "quantifier": "every history of requests, referrals, time-outs and re-used places", "why_tests_cant": "Needs particular interleavings of requests ending and starting.", "anchors": ["deadwood-github/src/DwUdpSocket.c: send_reply_from_cache", "deadwood-github/src/DwRecurse.c: dwx_incomplete_cname_done, dwx_send_glueless_cname_upstream"]}
{"id": "C55", "title": "Strings of the authoritative server stay in their blocks and do what they say", "statement": "Every string operation of the authoritative server (append, insert, substring, copy, add a byte or a 16 or 32 bit number, change a byte, compare, read, lower case) gives exactly the documented result or an error; it never reads or writes outside the memory of its strings, and a string never gets longer than its limit.", "quantifier": "every pair of strings, every offset and length", "why_tests_cant": "Boundary combinations of lengths, limits and offsets are unbounded.", "anchors": ["libs/JsStr.c: js_append, js_insert, js_substr, js_copy, js_addbyte, js_adduint16, js_changebyte, js_issame, js_val, js_readuint16", "libs/JsStrOS.c: js_adduint32", "libs/JsStrCP.c: js_tolower"]}
{"id": "C56", "title": "Searching a string finds the first match", "statement": "Searching a string of the authoritative server for another, non-empty string, or for a byte on (or not on) a non-empty list, gives the first such place at or after the given offset, and \"not found\" only if there is none.", "quantifier": "every string, every non-empty expression and every offset", "why_tests_cant": "All strings and expressions, with overlapping and partial matches.", "anchors": ["libs/JsStr.c: js_fgrep_offset, js_match_offset, js_notmatch_offset"]}
{"id": "C57", "title": "A cached answer is the answer received", "statement": "Turning a received answer with compressed names into the form kept in the cache keeps every record, in its section and order, with the same owner name, type, class, time to live and data, where every compressed name (in the owner and in the data of types that hold names) is replaced by the name it stands for. Proviso: the expanded answer has less than 2048 bytes.", "quantifier": "every answer, every way to compress the names in it (pointers into the answer or the question)", "why_tests_cant": "The number of compressed forms of one answer is unbounded.", "anchors": ["deadwood-github/src/DwCompress.c: dwc_decompress, dwc_decomp_rr, dwc_decomp_rddata, dwc_decomp_dname"]}
{"id": "C58", "title": "A compressed answer has the same records", "statement": "Compressing a cached answer for a client keeps every record, in its section and order, with the same data and, ignoring the letter case of names, the same names; expanding the result gives the cached answer back.", "quantifier": "every cached answer and every question", "why_tests_cant": "Compression depends on all earlier names in the message; collisions of suffixes are unbounded.", "anchors": ["deadwood-github/src/DwCompress.c: dwc_compress, dwc_compress_rr, dwc_comp_rddata, dwc_compress_dlabels"]}
{"id": "C59", "title": "The access lists of the authoritative server admit exactly what they say", "statement": "A list of addresses, networks (with a number of bits or a mask) and names of other lists, nested as the program allows, with any blanks around the entries, admits a client exactly if the client agrees with one of the addresses in the bits of its mask. Proviso: at most 500 entries, each entry written in less than 256 bytes, no entry 255.255.255.255.", "quantifier": "every well-formed list, every dictionary of named lists, every client address", "why_tests_cant": "2^32 addresses times unbounded lists.", "anchors": ["parse/ParseIpAcl.c: make_ip_acl, ddip_ipmask", "server/MaraDNS.c: check_ipv4_acl"]}
{"id": "C60", "title": "A TCP client has exactly the rights the access lists give it", "statement": "A client may transfer zones, use forwarding of UDP questions, and use recursion over TCP exactly if it is on the respective list, and is turned away exactly if it is neither on the list for zone transfers nor on the one for forwarding.", "quantifier": "every client address and every three lists", "why_tests_cant": "The rights depend on how many entries of each list match; tests use lists with a single entry.", "anchors": ["tcp/zoneserver.c: gettcp"]}
{"id": "C61", "title": "A question to the authoritative server gets the answer its zones define", "statement": "With the default settings, every question for a name (in any letter case) and an ordinary type is answered as follows: by the records of that type at the name, or else its CNAME; else, if the closest name servers at or above the name are those of a delegation, by a referral to them; else, if nothing exists at the name, by the closest star record of the type or a star CNAME directly above; else, below a zone of the server, by \"no data\" or \"no such name\" with the SOA record of the zone; else it is refused. Provisos: the name has at most 253 bytes, is not the root and, for addresses, not written like an address.", "quantifier": "every set of zones, every question, every letter case", "why_tests_cant": "Zones and names are unbounded; the search is a sequence of walks over the labels, whose interplay tests only sample.", "anchors": ["server/MaraDNS.c: proc_query, hunt_single_query, udpnotfound, bobbit_starlabel, make_starlabel, fold_case", "dns/bobbit.c: bobbit_label", "dns/Queries.c: dlabel_length, read_hdr", "server/MaraBigHash.c: get_rtype, change_rtype"]}
{"id": "C62", "title": "Denials, refusals and star records are given exactly when they are due", "statement": "With the default settings a client is told that a name does not exist exactly if there are no records at the name and no star name (of any type) above it and the server has the closest zone; a question is refused exactly if neither records, star records nor name servers are known for it; a star record is sent exactly for names without any records of their own.", "quantifier": "every set of zones and every question", "why_tests_cant": "Absence of records has to hold at every level of the name.", "anchors": ["server/MaraDNS.c: proc_query, udpnotfound"]}
{"id": "C63", "title": "No setting makes the server send records of another name", "statement": "Whatever the settings for star handling, protection level, fingerprint and recursive delegation (default zone off): records sent as an answer are those stored at the name asked for (of the type asked for or CNAME), referrals carry the closest name servers, star records are those of a star name above the name and are shown with the name asked for, denials carry the SOA record of the closest zone, and records of the type asked for at the name are always sent. Names written like an IPv4 address get that address.", "quantifier": "every setting, set of zones and question", "why_tests_cant": "The settings multiply the paths through the search.", "anchors": ["server/MaraDNS.c: proc_query, ddip_check, star_collision"]}
{"id": "C64", "title": "No packet can upset the authoritative server's question parser", "statement": "Whatever bytes arrive, the server does not read outside the packet's buffer when it takes the question apart, and never answers a packet that is itself a reply.", "quantifier": "every packet of every length", "why_tests_cant": "2^(8n) packets.", "anchors": ["server/MaraDNS.c: proc_query", "dns/Queries.c: dlabel_length, read_hdr"]}
{"id": "C65", "title": "Parameters that are not set have the documented values", "statement": "A numeric parameter that no file read at startup sets has, once reading is done, the value which the manual gives for it.", "quantifier": "every set of files and every documented numeric parameter", "why_tests_cant": "Files can include each other; the files are unbounded.", "anchors": ["deadwood-github/src/DwMararc.c: dwm_init_mararc, dwm_set_keys, dwm_parse_file", "deadwood-github/src/DwMararc.h"]}
{"id": "C66", "title": "The protection level leaves out exactly what is documented", "statement": "At every dos_protection_level the authoritative server answers an ordinary question as if the records that are out of use at that level were not there: CNAME records from 8 on, delegations from 12 on, questions for all records from 14 on, star records from 18 on, everything at 78. Below 8 all answers are the same as at level 0.", "quantifier": "every level, set of zones and question", "why_tests_cant": "Levels multiply the paths through the search.", "anchors": ["server/MaraDNS.c: proc_query", "doc/en/source/mararc.ej"]}
{"id": "C67", "title": "The associative arrays of the authoritative server are dictionaries", "statement": "Starting from an empty array, every sequence of storing, fetching, removing and growing gives the answers of a dictionary: a key that is there is refused and keeps its value, growing or resizing the table changes nothing that can be fetched, and going through the keys gives each of them once.", "quantifier": "every sequence of operations that stores at most 349525 entries, every key, every secret constant and table size from 2 to 2^24", "why_tests_cant": "Whether two keys share a chain depends on a hash with a random constant; tests meet few collisions and few growths.", "anchors": ["libs/MaraHash.c: mhash_create, mhash_put, mhash_get, mhash_undef, mhash_resize, mhash_autogrow, mhash_firstkey, mhash_nextkey"]}
{"id": "C68", "title": "The authoritative server answers with the records it has been given", "statement": "After records have been given to the authoritative server one by one, each with its zone, the reply to every ordinary question is the one that the records themselves call for: no record that its zone decides on is lost, nothing is sent that was not given, the name servers of the zone are sent along, a zone cannot take over a name that another zone decides on, and no record that has been freed is ever looked at.", "quantifier": "every list of records in which the name servers of each zone come first, and every question", "why_tests_cant": "Records share the ends of their chains and replace each other depending on the order and the zones; the combinations are unbounded.", "anchors": ["server/MaraBigHash.c: add_rr_to_bighash, mara_bighash functions", "server/MaraAnyChain.c: any_add_rr, any_zap_rr", "server/MaraDNS.c: proc_query"]}
{"id": "C69", "title": "The authoritative server answers with the records of its zone files", "statement": "Once the records of the zone files have been recognised, the server has exactly these: the SOA record at the top of the file or else one made up from the name of the zone and its serial, the name servers of the zone at the top of the file or else ones made up from the addresses of the server (public ones if there are any), then all other records, each with its time to live kept between a minute and two years, and with FQDN4 and FQDN6 standing for an address and the name for the address. The reply to every ordinary question is the one that these records call for; in particular a record for the name of the zone or for a name directly below it reaches every client that asks for it.", "quantifier": "every list of zone files with different zones (names up to 112 bytes, not the root), every list of records in them, every list of addresses", "why_tests_cant": "The order of records, the made-up records and the interplay of zones give unboundedly many cases.", "anchors": ["parse/Csv2_database.c: csv2_add_rr, csv2_add_rr_w, csv2_synthesize_ns, csv2_synthesize_soa, csv2_add_soa, csv2_make_ptr", "parse/Csv2_main.c: csv2_parse_zone, csv2_parse_main_bighash", "server/MaraBigHash.c: add_rr_to_bighash", "server/MaraDNS.c: proc_query"]}
{"id": "C70", "title": "The replies of the authoritative server survive their compression", "statement": "When the authoritative server shortens the names in a reply by pointers, the reply stays the same message: the same header, the same question byte for byte, the same records in the same order with the same types, classes, times to live and data, and names that differ at most in the case of letters. All pointers go to earlier places, the lengths of the data are those of the shortened data, the reply never gets longer, and no byte outside of the reply is looked at. A reply of fewer than 4100 bytes with at most 150 labels in its names is always shortened successfully.", "quantifier": "every reply whose records are well formed, of any size", "why_tests_cant": "Which names share an ending, and where, has unboundedly many arrangements; a pointer that is off by one shows only for particular ones.", "anchors": ["dns/Compress.c: compress_data, compress_dlabel, compress_sub_dlabel, compress_add_dlabel_points, compress_rddata", "dns/Decompress.c: decomp_get_label", "dns/Compress_rrdescs.h"]}
{"id": "C71", "title": "A reply of the authoritative server shows the records it should and fits its packet", "statement": "The reply to a question for which there are records has the identification of the question, the question itself, the answers from the first on (after an alias the records of the asked type it leads to), the name servers of the zone if the server has authority or delegates, and addresses of the hosts that these records name: never more records than the limits allow, never an address twice, all answers and name servers and addresses unless a limit has been reached, nothing that does not belong there. Over UDP it has at most 512 bytes unless the client is on the list for long packets: address records and name servers are left out from the end, as few as possible, and only if that is not enough the reply says that it is cut short.", "quantifier": "every arrangement of records in memory (chains, aliases, addresses, any number), every question, every limit up to 20 records", "why_tests_cant": "Which records fit depends on the compressed size of every subset; chains, aliases and shared addresses combine without bound.", "anchors": ["server/udpsuccess.c: udpsuccess", "dns/Queries.c: squeeze_to_fit, make_hdr, read_hdr", "dns/Compress.c: compress_data"]}
{"id": "C72", "title": "Round robin: every record gets its turn to be the first", "statement": "With the usual setting of one address for each host, each reply moves the first of the answers behind the others of its name and type. No record is lost, duplicated or changed by this, however often a question is asked; the n-th reply begins with record n, counted round and round.", "quantifier": "every arrangement of records in memory, every sequence of questions of any length", "why_tests_cant": "The order of the records is changed in place while the reply is being made; what is lost or repeated shows only after particular sequences of questions.", "anchors": ["server/udpsuccess.c: udpsuccess"]}
{"id": "C73", "title": "Text in zone files in UTF-8 is kept", "statement": "A quoted string in a TXT record of a zone file, written in UTF-8, is served byte for byte as written, with the right length in front.", "quantifier": "every string of UTF-8 characters that fits in one chunk (255 bytes)", "why_tests_cant": "Which characters survive depends on the ranges of code points; a test with western letters, which are two bytes long, passes whatever happens to longer ones.", "anchors": ["parse/Csv2_parse.c: csv2_get_1stchar, csv2_get_unicode, csv2_append_utf8", "parse/Csv2_rr_txt.c: csv2_get_txt"]}
{"id": "C74", "title": "A zone file says what its text says", "statement": "Reading a zone file gives exactly the records that its text describes, in order: names written in full, with % for the zone, or with a star; times to live given, inherited from /ttl, or the default; types by name or by number; data of the types A, FQDN4, AAAA, FQDN6, NS, CNAME, PTR, MB, NSAP-PTR, MX, AFSDB, RT, MD, MF, SRV, SOA, TXT, X25, ISDN, SPF, HINFO, GPOS and RAW; comments, blank lines and white space anywhere between the fields, with or without tildes between the records. Put together with what the server does with its records, the reply to each ordinary question is the one that the text of the zone files calls for.", "quantifier": "every zone file of the described grammar, of any length up to 100000 records; every question", "why_tests_cant": "The grammar is open-ended and the reader is a character loop with a state that is carried from record to record (last character, tilde mode, origin, time to live); a sample of files exercises few of the combinations.", "anchors": ["parse/Csv2_read.c", "parse/Csv2_parse.c", "parse/Csv2_rr_a.c", "parse/Csv2_rr_txt.c", "parse/Csv2_rr_aaaa.c", "parse/Parse_ipv6.c", "parse/Csv2_main.c: csv2_parse_zone"]}
{"id": "C75", "title": "/opush and /opop nest", "statement": "In a zone file, names between /opush and the matching /opop are completed with the pushed name, and names after it with the name that was in force before; this can be done as often as wanted.", "quantifier": "all zone files, any number of uses", "why_tests_cant": "A counter that only ever goes up shows only after enough uses in one file.", "anchors": ["parse/Csv2_parse.c: csv2_push_origin, csv2_pop_origin, csv2_control"]}
{"id": "C76", "title": "Addresses in AAAA records", "statement": "Whatever is written as an IPv6 address in a zone file is either refused or stored as sixteen bytes, without touching other memory; what is a proper address (eight groups, or fewer with one ::, in capitals or not) is stored as the sixteen bytes it denotes.", "quantifier": "every text, of any length", "why_tests_cant": "The reader counts colons and digits and jumps backwards at ::; only texts with a particular number of groups before and after show the overflow.", "anchors": ["parse/Parse_ipv6.c: ip6_to_raw", "parse/Csv2_rr_aaaa.c"]}
{"id": "C77", "title": "A mistake in a zone file loses nothing before it", "statement": "Whatever follows the good lines of a zone file, the records of the good lines are read, unchanged and first. A line that begins with a character that cannot begin one ends the reading there: nothing after it is read and no record is made up.", "quantifier": "every good beginning, every continuation", "why_tests_cant": "The continuation is arbitrary text; no finite set of broken files shows that none of them changes what was read before.", "anchors": ["parse/Csv2_main.c: csv2_parse_zone", "parse/Csv2_parse.c: csv2_read_rr"]}
{"id": "C78", "title": "Decompression of messages", "statement": "When the decompressor of the authoritative tools accepts a message, what comes out is the message with all names written out: same header, question and records in the same order, every name the one that a reader following the pointers finds. Every well-formed message is accepted, whatever mixture of labels and pointers its names are made of; in particular what the compressor made is decompressed to what was compressed. Whatever the bytes are, nothing behind the end of a string is read.", "quantifier": "all byte strings; all messages and all ways to compress them", "why_tests_cant": "Pointers may go anywhere, chain, or point into other names; the cases cannot be enumerated, and errors show as silently wrong records.", "anchors": ["dns/Decompress.c: decompress_data, decomp_decompress_packet, decomp_get_rddata, decomp_append_dlabel", "dns/Compress.c: compress_data"]}
{"id": "C79", "title": "A zone fetched from another server is the zone that was sent", "statement": "What fetchzone writes is a zone file. When MaraDNS reads it, it has exactly the records of the zone that the other server sent before it repeated the SOA record, in the same order, with the same names, types, times to live and data, however the server distributed them over messages and compressed them; records that do not belong to the zone are left out.", "quantifier": "every zone, every way to send it", "why_tests_cant": "The text that is written has to be understood by a parser that was written for people; whether it is depends on every byte of every record, and a sample zone has few of them.", "anchors": ["tcp/fetchzone.c: main", "dns/Queries.c: read_rr_h, read_soa, hname_translate, email_translate", "parse/Csv2_esc_txt.c: escape_stdout_csv2", "libs/JsStrOS.c: safe_esc_stdout", "parse/Csv2_main.c: csv2_parse_zone"]}
{"id": "C80", "title": "A server cannot slip anything into a zone file", "statement": "Whatever bytes a server sends to fetchzone, every line that is written is empty, a comment, or one record whose name, as it is written, is the name of the zone or ends in a dot and the name of the zone. Nothing that the server sends can end a line, a record or a comment, or begin a comment or a field.", "quantifier": "all messages, well-formed or not, any number of them", "why_tests_cant": "An attacker chooses the bytes; one byte that is not escaped is enough.", "anchors": ["tcp/fetchzone.c: main", "parse/Csv2_esc_txt.c: escape_stdout_csv2", "libs/JsStrOS.c: safe_esc_stdout", "dns/bobbit.c: bobbit_label"]}
{"id": "C81", "title": "A zone transfer is the zone", "statement": "What the zone transfer server sends of a zone is exactly the records that the text of its zone file says: the SOA record, every other record once, in the order of the file, each in a message of its own with its length in front, and the SOA record again; missing SOA and NS records are made up as in the server itself. The records are those the server answers with; only their order, capitals in the name of the SOA record and times to live out of bounds may differ. If the SOA record is asked for first, it is sent with the name servers of the zone before the transfer.", "quantifier": "every zone file, every first message", "why_tests_cant": "The file is read through a buffer of 66 records in batches of 29 and 20, with records that expand to several; errors at the edges of batches lose or repeat records only for files of certain lengths.", "anchors": ["parse/Csv2_main.c: csv2_parse_zone_zoneserver, csv2_tcp_spit_data, csv2_tcp_spit_buffer, csv2_append_rr", "parse/Csv2_database.c: csv2_add_rr_w, csv2_add_rr, csv2_push_buffer, process_1st_record, synth_soa, synth_ns"]}
{"id": "C82", "title": "Who gets what over TCP", "statement": "The TCP server sends a zone only to clients whose address is in zone_transfer_acl, and asks the other server only for clients in tcp_convert_acl; others get nothing, whatever they send. A client in zone_transfer_acl that asks for the transfer of a zone, in any capitals, gets exactly that zone. Any other question of a client in tcp_convert_acl is passed on with a fresh identification, and the reply is given back unchanged but for the identification, which is the one of the client, and the names, which are written out; a reply with another identification is not given to anybody. Messages that are answers are ignored. The fresh identification is unpredictable: it is derived from the file the administrator has named.", "quantifier": "all clients, all bytes, all lists, all replies", "why_tests_cant": "Addresses, lists and bytes are unlimited; that nothing is sent to others cannot be seen from samples, and a random number that does not depend on its seed looks random in tests.", "anchors": ["tcp/zoneserver.c: main, serve_zone, get_query, convert_query, srng", "dns/Decompress.c: decompress_data", "parse/ParseIpAcl.c"]}
{"id": "C83", "title": "A second server answers as the first", "statement": "When a zone is fetched from this server with fetchzone and the file that is written is given to another server of this kind, the other server replies to every ordinary question about the zone exactly as the first one does.", "quantifier": "every zone file, every question, every pair of servers", "why_tests_cant": "It takes three programs and two formats, each with its own corner cases; only a composition of exact statements about each of them covers all zones.", "anchors": ["parse/Csv2_main.c: csv2_parse_zone_zoneserver", "tcp/fetchzone.c", "parse/Csv2_main.c: csv2_parse_zone", "server/MaraDNS.c: proc_query"]}
{"id": "C84", "title": "A server cannot speak for names outside its zone", "statement": "Whatever the servers of a zone reply to a question, the only things the recursive resolver puts in its cache are: an answer to that very question; what the name asked for is an alias of; and who serves a zone that lies below the zone of these servers and is the name asked for or above it. The servers asked next are those of such a zone. In particular no reply can change who is believed to serve a name outside the zone, or any name that is not at or above the one asked for.", "quantifier": "every zone, every question, every reply with any number of records of any kind in any section", "why_tests_cant": "An attacker who runs one zone chooses the reply; the checks depend on positions, counts and names of records in three sections, and one combination that gets through is enough to poison the cache.", "anchors": ["deadwood-github/src/DwRecurse.c: dwx_dissect_packet, dwx_check_bailiwick, dwx_make_ns_refer, dwx_handle_ns_refer, dwx_cache_reply"]}
{"id": "C85", "title": "A referral is followed as it was meant", "statement": "When a reply without answers refers to the servers of a zone further down, the next servers asked are exactly those it names: for each one with addresses in the reply, all these addresses, and for each one without, its name, to be looked up. Addresses of others are not used. This list is kept for that zone. Whichever server is chosen next is one from that list.", "quantifier": "every referral with at most 15 authority records and 31 servers", "why_tests_cant": "Names and addresses are matched across two sections by name, in any order and number, and kept in a format with offsets; a wrong offset shows only for certain lengths and numbers.", "anchors": ["deadwood-github/src/DwRecurse.c: dwx_link_ns_ar, dwx_make_ns_refer, dwx_ns_getip, dwx_handle_ns_refer"]}
{"id": "C86", "title": "The answer is what was asked for", "statement": "Of the answers in a reply, the recursive resolver believes the chain of aliases from the name asked for up to the first that leads out of the zone of the servers, and the records of the type asked for that belong to the name asked for or to the end of the chain. If there is one of the type asked for, exactly the believed records are kept as the answer. If there are only aliases, they are kept and the name they lead to is looked up instead. If no record has to do with the question, nothing is kept. Without answers, an SOA record in front makes it a denial. Whatever the reply is, an answer that is kept consists of records of this reply of the type asked for and aliases, or is a denial, or is one additional record with the name and type asked for.", "quantifier": "every reply; the exact statements for replies that begin with their aliases", "why_tests_cant": "Records come in any order, with any names, types and lengths; a wrong one in the answer is a wrong address for somebody.", "anchors": ["deadwood-github/src/DwRecurse.c: dwx_check_answer_section, dwx_determine_answer_type, dwx_remake_complete_reply, dwx_make_cname_refer, dwx_handle_cname_refer"]}
{"id": "C87", "title": "No reply does harm, and nothing is kept forever", "statement": "Whatever well-formed reply comes, nothing outside the strings involved is read or written. Everything that is kept because of it is kept for at least 30 seconds and at most max_ttl, answers and aliases for at least min_ttl.", "quantifier": "every reply, every setting", "why_tests_cant": "Times come from the network and from the configuration, with shifts by the number of labels; lengths and offsets come from the network.", "anchors": ["deadwood-github/src/DwRecurse.c: dwx_cache_reply, dwx_handle_ns_refer, dwx_handle_cname_refer, dwx_dissect_packet"]}
{"id": "C88", "title": "Addresses sent along are those of the hosts named", "statement": "When the authoritative server has read its zones, every name server record and every mail exchanger record leads to the addresses that were given for the very host it names (the IPv6 ones if they are wanted), and to none if none were given; every alias leads to the records that were given for the name it stands for, by their types. This does not depend on the order in which the server happens to find the names in its table. The records themselves are as they were given.", "quantifier": "all records given, all orders", "why_tests_cant": "The order of the table depends on a hash function and on a secret number, and the pointers are made in one pass over it; which pairs of records get mixed up depends on the order.", "anchors": ["server/MaraBigHash.c: add_an, answer_ip_query, make_ddip"]}
{"id": "C89", "title": "From the text of the zone files to the bytes of the replies", "statement": "The authoritative server starts from the text of its zone files. Whatever questions come then, one after the other, the bytes of each reply are those of a message that says what the records written in the files say about this question: the records of the name and type asked for, or of an alias, or the name servers of a delegation, or star records, or that there is nothing (with the SOA record of the zone), or a refusal; with the name servers of the zone and the addresses of the hosts named.", "quantifier": "all zone files of the usual form, all sequences of questions", "why_tests_cant": "The claim joins the parser, the table, the pointers, the search, the assembly of packets and the compression, each of which has states of its own.", "anchors": ["parse/Csv2_main.c: csv2_parse_main_bighash", "server/MaraBigHash.c: add_rr_to_bighash, add_an", "server/MaraDNS.c: proc_query, udpstar, udpnotfound", "server/udpsuccess.c: udpsuccess", "dns/Compress.c: compress_data"]}
{"id": "C90", "title": "The server stays right however long it runs", "statement": "After any number of questions and other packets, in any order, each question still gets the reply that it has to get for the records the server was given, in the order that the records are in at that time; it never reads memory that is not a record, and packets that are no questions change nothing.", "quantifier": "all records given, all sequences of packets", "why_tests_cant": "Answering a question changes the pointers between records in memory; a pointer that goes wrong once may show only for some later question for another name.", "anchors": ["server/MaraDNS.c: proc_query, udpsuccess, udpstar, udpnotfound, udperror", "server/udpsuccess.c: udpsuccess"]}
{"id": "C91", "title": "The records of a name take turns, whatever else is asked", "statement": "With a limit of one address for each record, the records of a name and type are sent in an order that moves on by one with every question that they are the answer to. After any questions the order is the one at the start moved on by the number of these questions. Questions for other names or types, and packets that are no questions, do not change it. With other limits the order never changes.", "quantifier": "all records given, all sequences of packets", "why_tests_cant": "The turning is done by changing pointers in a chain that is shared with name servers; that nothing else turns it can only be seen over all sequences.", "anchors": ["server/udpsuccess.c: udpsuccess", "server/MaraDNS.c: proc_query"]}
{"id": "C92", "title": "An answer that is kept is given, whole, until its time is over", "statement": "An answer is put into the cache of Deadwood with a lifetime of up to a year. Any other questions of clients and any other uses of the cache follow that do not replace or remove this answer. A client that asks this question (with letters in any case) over UDP before the time is over gets a whole message with its own ID, its own question and all records of the answer; the time to live of the records is what is left, and the order of the records has moved on by the number of times that the question was asked. The answer may only be missing if the cache had no room for everything put into it.", "quantifier": "all caches, all hash functions, all entries made at start-up, all sequences of questions and other calls, all answers that fit in a UDP reply", "why_tests_cant": "Each question changes the entry (order and time to live) and its place in the list of entries to be removed; a fault may need a certain sequence of questions for several names.", "anchors": ["deadwood-github/src/DwUdpSocket.c: get_reply_from_cache", "deadwood-github/src/DwDnsStr.c: dwc_process", "deadwood-github/src/DwHash.c: dwh_get, dwh_add", "deadwood-github/src/DwCompress.c: dwc_compress", "deadwood-github/src/DwUdpSocket.c: make_dns_packet"]}
{"id": "C93", "title": "After its time an answer is not given any more", "statement": "Whatever Deadwood puts into its cache for a question: as soon as its lifetime (at least 30 seconds, at most two years) is over, no client gets anything from the cache for this question until something new is put there; asking for it while it was valid does not make it live longer. (Only when all servers have failed, expired entries are used.)", "quantifier": "all caches, all sequences of questions and other calls", "why_tests_cant": "Giving an answer puts it back into the cache; whether that makes it live longer can be seen only over sequences in time.", "anchors": ["deadwood-github/src/DwUdpSocket.c: get_reply_from_cache", "deadwood-github/src/DwDnsStr.c: dwc_process", "deadwood-github/src/DwHash.c: dwh_get, dwh_add"]}
{"id": "C94", "title": "No client gets the answer to another question", "statement": "If nothing was ever put into the cache for a name and type, no client that asks for this name and type gets anything from the cache, whatever is kept for other names and types.", "quantifier": "all caches, all hash functions, all sequences of questions and other calls", "why_tests_cant": "Keys that collide, and entries moved between chains and lists, are a matter of the whole history.", "anchors": ["deadwood-github/src/DwUdpSocket.c: get_reply_from_cache", "deadwood-github/src/DwHash.c: dwh_get"]}
{"id": "C95", "title": "Questions of clients do not disturb the cache", "statement": "Any sequence of questions of clients and calls of the other parts of Deadwood runs without undefined behaviour; and a question changes nothing of what the cache holds for any other question.", "quantifier": "all caches, all hash functions, all sequences of questions and other calls", "why_tests_cant": "A list of entries with pointers is changed with every question; damage shows later and elsewhere.", "anchors": ["deadwood-github/src/DwUdpSocket.c: get_reply_from_cache", "deadwood-github/src/DwDnsStr.c: dwc_process", "deadwood-github/src/DwHash.c: dwh_get, dwh_add, dwh_zap"]}
{"id": "C96", "title": "A blocked name stays blocked", "statement": "If a name is on the block list from the start, every question of a client over UDP for its IPv4 address or for its IPv6 address gets the reply that there is no such record, with the ID and question of the client, however long Deadwood runs and whatever is put into the cache.", "quantifier": "all caches, all sequences of questions and other calls, all names", "why_tests_cant": "The entries for blocked names are in the same table as the answers, which are replaced and removed all the time.", "anchors": ["deadwood-github/src/DwUdpSocket.c: get_reply_from_cache", "deadwood-github/src/DwHash.c: dwh_add, dwh_get"]}
{"id": "C97", "title": "IPv6 addresses in scripts are read as they are written", "statement": "A script of coLunacyDNS may give an IPv6 address in the usual form (eight groups of up to four hexadecimal digits with colons, or fewer groups with one double colon) or as 32 hexadecimal digits with spaces and dashes between them. The client gets the 16 bytes that the text stands for; and every address that coLunacyDNS itself tells a script can be given back unchanged.", "quantifier": "all addresses, all ways to write them", "why_tests_cant": "There are too many ways to leave out zeros, and groups; the parser makes two passes over the text whose counters have to agree.", "anchors": ["coLunacyDNS/coLunacyDNS.c: ip6Parse", "coLunacyDNS/coLunacyDNS.c: resumeThread", "coLunacyDNS/coLunacyDNS.c: processQueryC"]}
{"id": "C98", "title": "Scripts see the name asked for and can ask for any name", "statement": "The name a script of coLunacyDNS is given stands for exactly one name on the wire (characters other than letters, digits, hyphens and underscores are shown as escapes). Any name of up to 256 characters that a script asks for is sent label by label with the same letters, upper or lower case at random; and whatever text is given as a name, no memory outside the name is written to.", "quantifier": "all names, all texts, all random numbers, all contents of fresh memory", "why_tests_cant": "Faults of length limits need names of special lengths, and random cases need all sequences of random bits.", "anchors": ["coLunacyDNS/coLunacyDNS.c: humanDNSname", "coLunacyDNS/coLunacyDNS.c: human2DNS"]}
{"id": "C99", "title": "Replies of coLunacyDNS are whole messages", "statement": "Every reply of coLunacyDNS to a question repeats ID and question and is a DNS message from its first byte to its last: the counts in its header are those of its records, and there are no bytes behind the last record.", "quantifier": "all questions, with or without EDNS, all results of scripts", "why_tests_cant": "A stray byte is ignored by most clients, so tests pass; that there is none has to be known for every kind of reply and every name.", "anchors": ["coLunacyDNS/coLunacyDNS.c: endThread", "coLunacyDNS/coLunacyDNS.c: processQueryC"]}
{"id": "C100", "title": "Every reply says what the script says", "statement": "Whatever happens after the start (questions of this and other clients, replies of other servers, timeouts, in any order, any script): each reply to a client is the reply to one of the questions of that client, and says what the script said for that question when it was started with it and was told, each time it asked for a name, an error, that nothing came, or what is in a packet that came and is for the name it asked for. Questions for all there is get the reply of RFC 8482.", "quantifier": "all scripts, all sequences of events, any number of questions at a time", "why_tests_cant": "Co-routines of many questions wait at the same time and places are used again; a mix-up of two of them needs special interleavings.", "anchors": ["coLunacyDNS/coLunacyDNS.c: processQueryC", "coLunacyDNS/coLunacyDNS.c: newDNS", "coLunacyDNS/coLunacyDNS.c: resumeThread", "coLunacyDNS/coLunacyDNS.c: endThread", "coLunacyDNS/coLunacyDNS.c: runServer"]}
{"id": "C101", "title": "No more replies than questions, and only to who asked", "statement": "Whatever packets come from whomever, with or without sense: a client gets at most one reply for each packet it has sent, with the ID of that packet, and nobody who sent nothing gets a reply.", "quantifier": "all scripts, all sequences of events, all packets", "why_tests_cant": "A co-routine could end twice, or be resumed after its place has been given away, only in special interleavings.", "anchors": ["coLunacyDNS/coLunacyDNS.c: processQueryC", "coLunacyDNS/coLunacyDNS.c: newDNS", "coLunacyDNS/coLunacyDNS.c: resumeThread", "coLunacyDNS/coLunacyDNS.c: endThread", "coLunacyDNS/coLunacyDNS.c: runServer"]}
{"id": "C102", "title": "A script is told the first address of the reply to its question, and of no other packet", "statement": "If a script is told an address, the packet has the ID that was sent and the name that was sent, in the same mixture of upper and lower case. The script is told the first IPv4 or IPv6 address in such a reply, behind any aliases and other records.", "quantifier": "all replies with names of any form and records of any types, all contents of memory before", "why_tests_cant": "What is read depends on lengths given by the other server and on what was in memory before.", "anchors": ["coLunacyDNS/coLunacyDNS.c: resumeThread", "coLunacyDNS/coLunacyDNS.c: humanDNSname"]}
{"id": "C103", "title": "coLunacyDNS does not misuse memory", "statement": "Whatever clients and other servers send, coLunacyDNS does not read or write outside of its memory, and what it does depends only on what was sent.", "quantifier": "all scripts, all sequences of events, all packets", "why_tests_cant": "Reading behind the end of memory has no visible effect in tests most of the time.", "anchors": ["coLunacyDNS/coLunacyDNS.c: processQueryC", "coLunacyDNS/coLunacyDNS.c: newDNS", "coLunacyDNS/coLunacyDNS.c: resumeThread", "coLunacyDNS/coLunacyDNS.c: humanDNSname", "coLunacyDNS/coLunacyDNS.c: runServer"]}
{"id": "C104", "title": "Questions for all records are answered with RFC 8482", "statement": "With the default settings a UDP question for all records (type ANY) of any name gets one reply, the same whatever zones the server has: a whole message of up to 512 bytes with the ID, the wish for recursion and the question of the packet, and one record of the name asked for, of type HINFO, with \"RFC8482\" and a time to live of an hour. It leaves the records of the server and their order as they are, whatever came before.", "quantifier": "all names, all sets of records, all packets before and after", "why_tests_cant": "A test asks for a few names of a few zones; that nothing of the zones gets into the reply, and nothing of the question into the order of records, has to be known for all.", "anchors": ["server/MaraDNS.c: udpany", "server/MaraDNS.c: proc_query"]}
{"id": "C105", "title": "From a packet off the wire to the cache", "statement": "When Deadwood gets a packet that is a reply - header, question and records, with names compressed by pointers into the question or behind it - then, whatever was in memory before, nothing undefined happens; a reply with a blocked address among its answers, and only such a reply, is reported as blocked and not believed; a reply that says the server failed is not believed; of a reply with an answer exactly the believable records (aliases from the name asked for, and records of the type asked for at the name or where the aliases lead) are kept, under the question in lower case, for as long as the aliases and the first record behind them allow, within the bounds of the configuration; of a denial it is kept that there is no such name or record, for as long as the SOA record allows; and nothing else is put in the cache.", "quantifier": "all messages, all ways to compress their names, all configurations, all contents of fresh memory", "why_tests_cant": "Compression gives very many packets for one message, and the names read through pointers into the question have to agree with the names read elsewhere; a test has a few recorded packets.", "anchors": ["deadwood-github/src/DwUdpSocket.c: cache_dns_reply", "deadwood-github/src/DwStr.c: dw_packet_to_cache", "deadwood-github/src/DwRecurse.c: dwx_cache_reply"]}
{"id": "C106", "title": "What MaraDNS answers, Deadwood keeps", "statement": "When a MaraDNS server has been given records, then whatever questions come to it one after the other, every reply to a question for one type that is not cut short and does not report a failure, handed to a Deadwood that asked this question, leaves in the cache of Deadwood exactly what the server has for the question, and nothing else: the records of the name (all of them, or as many as the limits of the server allow), an alias with the records of the name it leads to, star records under the name asked for, or that there is no such name or record; under the name in lower case, and for as long as the records allow within the bounds of the configuration.", "quantifier": "all sets of records, all sequences of packets to the server, all orders the records are in, all settings of Deadwood", "why_tests_cant": "Two programs have to agree on every detail of a packet: the compression of one must be understood by the other, whatever the names have in common.", "anchors": ["server/MaraDNS.c: udpsuccess", "server/MaraDNS.c: udpnotfound", "dns/Compress.c: compress_data", "deadwood-github/src/DwUdpSocket.c: cache_dns_reply", "deadwood-github/src/DwStr.c: dw_packet_to_cache"]}
{"id": "C107", "title": "An alias is answered with the aliases and the records of the name they lead to", "statement": "When the servers of a name reply that it is an alias for a name elsewhere (over any number of aliases), and the servers of that name reply with records, the client that asked for the first name is told both: one record for each alias, in order, leading from the name asked for to the last name, and then the records of the last name exactly as they were received from its own servers (not what the servers of the first name said about it). That answer is kept for the question, for as long as the records at the end allow, within the bounds of the configuration. Making it never misuses memory, whatever the other servers send.", "quantifier": "all names, all numbers of aliases and of records, all types, all configurations, all contents of fresh memory", "why_tests_cant": "The answer is put together from two replies of different servers in a string of limited size; what happens near the limits depends on the lengths of all the names.", "anchors": ["deadwood-github/src/DwRecurse.c: dwx_make_cname_reply", "deadwood-github/src/DwRecurse.c: dwx_create_cname_reply", "deadwood-github/src/DwRecurse.c: dwx_add_final_answer", "deadwood-github/src/DwRecurse.c: dwx_make_one_cname_rr"]}
{"id": "C108", "title": "Several clients that wait for the same answer", "statement": "When several clients have asked Deadwood the same question and wait, a reply of another server has the same effect as with one client: it is believed or not, and the same is kept, whatever the number of clients. An answer is kept once and leaves the request as it is; a referral makes the servers it names the ones to ask next; a referral that the servers asked may not make is not believed.", "quantifier": "all messages, all lists of servers, all numbers of clients, all contents of the cache", "why_tests_cant": "A test has one client that waits; what a second look at the same packet does depends on what the first look made of the request.", "anchors": ["deadwood-github/src/DwUdpSocket.c: get_remote_udp_packet", "deadwood-github/src/DwUdpSocket.c: get_rem_udp_packet_core", "deadwood-github/src/DwRecurse.c: dwx_handle_ns_refer"]}
{"id": "C109", "title": "Everything in the cache goes back to the configured servers", "statement": "Whatever questions come, whatever other servers send, in whatever order things happen (questions that wait for others, aliases that lead elsewhere, names of servers without addresses, timeouts, elements of the cache that lapse): the servers that the cache has for a zone are configured, or servers that may speak for a zone above have been heard to refer to them; aliases and answers in the cache have been heard from servers that may speak for the name, or are put together from such aliases and such an answer; and whoever is asked for a name is taken from a list of servers that may speak for a zone the name is in.", "quantifier": "all configurations, all sequences of events, all messages received", "why_tests_cant": "It is about all histories: one reply that is believed wrongly, at any time, makes all that follows from it wrong.", "anchors": ["deadwood-github/src/DwSocket.c: get_upstream_ns", "deadwood-github/src/DwSocket.c: get_upstream_ip", "deadwood-github/src/DwUdpSocket.c: make_remote_connection", "deadwood-github/src/DwUdpSocket.c: get_remote_udp_packet", "deadwood-github/src/DwRecurse.c: dwx_handle_ns_refer", "deadwood-github/src/DwRecurse.c: dwx_ns_getip", "deadwood-github/src/DwRecurse.c: dwx_do_ns_glueless", "deadwood-github/src/DwRecurse.c: dwx_glueless_done", "deadwood-github/src/DwRecurse.c: dwx_incomplete_cname_done", "deadwood-github/src/DwRecurse.c: dwx_cached_cname_done"]}
{"id": "C110", "title": "A delegation in a MaraDNS zone is where Deadwood goes on", "statement": "When the MaraDNS server has, for the name a Deadwood resolver asks for, nothing but a delegation to a zone above it, the resolver that gets the reply goes on with exactly the name servers of the delegated zone that the server has and shows, with those of their addresses that it shows, each for names of the delegated zone; it remembers them for that zone, and remembers nothing else. The server shows all of them, up to its limits and up to what fits into 512 bytes.", "quantifier": "all zones, all questions, all sequences of packets before", "why_tests_cant": "It joins two programs, for all zones and all questions: the tests of the one do not read what the other one sends.", "anchors": ["server/MaraDNS.c: udpsuccess", "deadwood-github/src/DwRecurse.c: dwx_cache_reply", "deadwood-github/src/DwUdpSocket.c: get_rem_udp_packet_core"]}
{"id": "C111", "title": "The nearest servers known are asked", "statement": "A question that nobody has been asked yet goes to the servers of the nearest zone, of all the zones its name is in, for which Deadwood knows servers at that time, whether configured or learned; what is configured is never replaced, forgotten or overruled for the same zone by what is learned; and as long as there are configured servers for a zone above the name, there is always somebody to ask.", "quantifier": "all configurations, all sequences of events, all names", "why_tests_cant": "It depends on what has been learned in any order before, and on names of any number of labels.", "anchors": ["deadwood-github/src/DwSocket.c: get_upstream_ns", "deadwood-github/src/DwHash.c: dwh_add", "deadwood-github/src/DwUdpSocket.c: make_remote_connection", "deadwood-github/src/DwRecurse.c: dwx_handle_ns_refer"]}
{"id": "C112", "title": "No packet whatsoever makes Deadwood do anything undefined", "statement": "Whatever bytes arrive in reply to a question, whether they are a DNS message or not, with counts, lengths, pointers and names of any kind, Deadwood reads and writes no memory that it should not while it decides what to do with them and what to remember; nor for any sequence of such packets, where the later ones are judged by what the earlier ones have left behind. If the packet leads to anything, what is remembered is remembered for the question in it, for the aliases of its name, or as the servers of a zone, and, if at most fifteen authority records are counted, only of zones that the servers asked may delegate.", "quantifier": "all packets of any bytes, all sequences of packets, all configurations", "why_tests_cant": "The packets come from attackers; no sample of bytes says anything about the others.", "anchors": ["deadwood-github/src/DwUdpSocket.c: cache_dns_reply", "deadwood-github/src/DwStr.c: dw_packet_to_cache", "deadwood-github/src/DwCompress.c: dwc_decompress", "deadwood-github/src/DwDnsStr.c: dwc_has_bad_ip", "deadwood-github/src/DwDnsStr.c: dwc_make_dns_str", "deadwood-github/src/DwRecurse.c: dwx_dissect_packet", "deadwood-github/src/DwRecurse.c: dwx_cache_reply"]}
{"id": "C113", "title": "Nobody speaks for others, whatever is sent", "statement": "Whatever bytes servers send to Deadwood, DNS messages or not, over any sequence of questions and replies: what it then holds as the answer for a name, or as its aliases, came in reply to a question for that name from servers that may speak for it; what it holds as the servers of a zone was configured, or came in reply to a question for a name of the zone from servers of a zone above; and whoever it asks is taken from such servers. So servers that may speak for no zone which a name is in can do nothing about that name: there is no answer and no alias for it, and no servers but those configured.", "quantifier": "all configurations, all sequences of events, all packets of any bytes", "why_tests_cant": "What is believed depends on all packets before, and an attacker chooses their bytes.", "anchors": ["deadwood-github/src/DwUdpSocket.c: get_rem_udp_packet_core", "deadwood-github/src/DwUdpSocket.c: cache_dns_reply", "deadwood-github/src/DwRecurse.c: dwx_cache_reply", "deadwood-github/src/DwRecurse.c: dwx_handle_ns_refer", "deadwood-github/src/DwRecurse.c: dwx_handle_cname_refer", "deadwood-github/src/DwSocket.c: get_upstream_ns"]}
{"id": "C114", "title": "Whatever is sent to the authoritative server, others get their answers", "statement": "An authoritative MaraDNS server has loaded its zones. Then whatever packets arrive over UDP, of any bytes and any number of them - questions, questions of other classes, names with pointers or star bytes in them, names that are no names, replies, fragments -, none of them makes the server read or write outside of what it may, use a record it does not have, or stop; every well-formed question among them is answered as it would be if the rest had not been sent, but for which of several records of a name comes first; and after any such sequence all records of every name are still there, in their order up to rotation.", "quantifier": "all zone data that can be loaded, all sequences of packets of any bytes", "why_tests_cant": "Packets can be anything, and whether one of them breaks the shared record chains only shows in replies to later ones.", "anchors": ["server/MaraDNS.c: proc_query", "server/MaraDNS.c: udpnotfound", "server/MaraDNS.c: udpany", "server/udpsuccess.c: udpsuccess", "dns/Queries.c: dlabel_length", "dns/bobbit.c: bobbit_label", "server/MaraDNS.c: make_starlabel", "server/MaraDNS.c: bobbit_starlabel"]}
{"id": "C115", "title": "Questions go to addresses of the servers that are to be asked", "statement": "When Deadwood sends a question to the servers of a zone, the address it sends it to is one that the list of these servers gives, byte for byte, or, for a server that is known by its name only, the address in an A record of the answer that Deadwood holds for that name. If it holds no such answer, it asks for the address of that name first, and once the answer for it has come, the question goes to an address of that answer. Of several addresses each can be chosen.", "quantifier": "all lists of servers, all cached answers, all random numbers", "why_tests_cant": "Which bytes are used as the address depends on where things lie in the list and in the answer, and on random numbers.", "anchors": ["deadwood-github/src/DwRecurse.c: dwx_get_rr_from_answer", "deadwood-github/src/DwRecurse.c: dwx_ns_getip", "deadwood-github/src/DwRecurse.c: dwx_ns_getip_glueless", "deadwood-github/src/DwRecurse.c: dwx_glueless_done", "deadwood-github/src/DwUdpSocket.c: make_remote_connection"]}
{"id": "C116", "title": "The configuration file of MaraDNS means what it says", "statement": "A mararc file made of the statements the manual describes - variables set to a quoted text or a number, dictionaries declared with {}, entries of dictionaries, both also with +=, comments and empty lines, with blanks and comments in any of the places they may stand - gives exactly the settings it says: every variable and every entry has the text written last or added up, keys that are domain names in lower case, everything else stays unset; and MaraDNS refuses to start exactly when a variable is unknown, an entry is set twice or in a dictionary that is not declared, or something is added to what is not set or is a number. No line of any bytes makes the parser fail, what is taken from a line stands in that line, and if a line is wrong the message names the first such line and nothing behind it changes a setting.", "quantifier": "all files of such statements of any number in any layout; for the last sentence all files of any lines", "why_tests_cant": "A file is any sequence of statements with free layout; tests show single lines.", "anchors": ["parse/ParseMaraRc.c: parseline", "parse/ParseMaraRc.c: read_mararc", "parse/ParseMaraRc.c: write_kvar", "parse/ParseMaraRc.c: write_dvar", "parse/ParseMaraRc.c: new_dvar"]}
{"id": "C117", "title": "A file is read line by line as it is written", "statement": "MaraDNS reads its configuration file, of any length, line by line: the lines the program gets are the lines of the file, byte for byte and in order, wherever the blocks begin in which the file is read, also when the last line has no line end; a line that is too long is reported. So the bytes of a configuration file made of the statements of the manual set exactly what they say.", "quantifier": "all files of any length with lines of any lengths", "why_tests_cant": "Whether a line is got as it is depends on where in the file the blocks of 1024 bytes begin; tests use short files.", "anchors": ["libs/JsStrOS.c: js_buf_getline", "libs/JsStrOS.c: js_buf_read", "libs/JsStrOS.c: js_buf_eof", "parse/ParseMaraRc.c: read_mararc"]}
{"id": "C118", "title": "LOC, NSAP, WKS and NAPTR records in zone files mean what they say", "statement": "A LOC record in a zone file is served with the latitude, longitude and altitude that are written, to the thousandth of a second and to the centimetre, and with the size and precisions written, as closely as the format can say them, or else the defaults; an NSAP record is served with the bytes that are written in hexadecimal; a WKS record with the address and the protocol that are written, and a bitmap that has exactly the ports of the list; a NAPTR record with the order, preference, strings and name that are written.", "quantifier": "all numbers in range, all gaps and comments between them, all addresses, all lists of ports", "why_tests_cant": "The numbers, digits and ports can be any, and they are packed into bits; tests show a few records.", "anchors": ["parse/Csv2_rr_wks.c: csv2_get_loc", "parse/Csv2_rr_wks.c: csv2_get_lon_lat", "parse/Csv2_rr_wks.c: csv2_get_int", "parse/Csv2_rr_wks.c: csv2_get_hex", "parse/Csv2_rr_wks.c: csv2_get_wks", "parse/Csv2_rr_wks.c: csv2_get_naptr"]}
{"id": "C119", "title": "What clients send cannot break or forge the log", "statement": "Every packet that MaraDNS logs appears in the log as lines of printable characters that MaraDNS itself began: a client cannot end a line of the log, begin one of its own or put control characters in it; a packet that is refused or shown in full can be read back from its line byte for byte; a question is one line with the address of the client, the letter of the type and the name; at the lower levels nothing is logged.", "quantifier": "all packets of any bytes, all addresses, all levels", "why_tests_cant": "A packet can hold any bytes anywhere; tests log a few ordinary names.", "anchors": ["libs/JsStrOS.c: show_esc_stdout", "libs/JsStrOS.c: js_show_stdout", "server/MaraDNS.c: main", "server/MaraDNS.c: udperror", "server/MaraDNS.c: zjlog", "dns/Queries.c: hname_translate"]}
{"id": "C120", "title": "The serial number of a zone rises when its file is changed", "statement": "A zone whose file has no serial number of its own is served with one made from the time of the last change of the file. Whenever the file is changed again, at least six seconds later, or in a later hour if the readable form is chosen, other servers see a newer serial number in the sense of RFC 1982, also when the numbers run over and also on systems whose times have 32 bits; a later change never gives an older number; the readable form is the year, month, day and hour of the change.", "quantifier": "all times of changes after 1979 and less than four hundred years apart, all zone files", "why_tests_cant": "It is about any two moments over centuries, with overflows in 2038 and later that no test waits for.", "anchors": ["parse/Csv2_database.c: csv2_set_soa_serial", "parse/Csv2_database.c: csv2_synthesize_soa", "parse/Csv2_main.c: csv2_parse_zone", "parse/Csv2_main.c: csv2_parse_zone_zoneserver"]}
{"id": "C121", "title": "The clock of Deadwood runs right, also after 2038", "statement": "Whatever the clock of Deadwood showed before, after it is set it shows the 256ths of a second that have passed since its beginning in 1979: it never goes back while time goes on, is never off by more than a step, and stands if the time cannot be read. So an answer that is kept with a lifetime is found for that many seconds by the clock of the system and not found a 256th of a second later. This is so on systems whose times have 64 bits and, through 2038, when they turn negative, on those with 32 bits.", "quantifier": "all moments, all lifetimes, all histories of the cache", "why_tests_cant": "Overflows of the time come in decades; the fractions of a second can be any.", "anchors": ["deadwood-github/src/DwSys.c: set_time", "deadwood-github/src/DwHash.c: dwh_get", "deadwood-github/src/DwHash.c: dwh_add"]}
{"id": "C122", "title": "The log of Deadwood can be read back, and nobody can forge it", "statement": "Whatever bytes clients and servers send, each message that Deadwood logs is one line of printable characters, the lines of the log are the messages in their order, and the bytes, names, addresses and data in a line can be read back from it exactly; strings that differ never look the same, and none looks like a missing string. With a verbosity of zero or less nothing is written; otherwise exactly the messages of that level and below.", "quantifier": "all sequences of messages with any bytes in them, all levels", "why_tests_cant": "Names and packets hold any bytes; tests log ordinary names.", "anchors": ["deadwood-github/src/DwSys.c: dw_log_dwstr_p", "deadwood-github/src/DwSys.c: dw_log_dwstr", "deadwood-github/src/DwSys.c: dw_log_dwstr_str", "deadwood-github/src/DwSys.c: dw_log_ip", "deadwood-github/src/DwSys.c: dw_log_dwstrip", "deadwood-github/src/DwSys.c: dw_log_string"]}
{"id": "C123", "title": "Scripts of coLunacyDNS read only files of their directory, line by line", "statement": "Whatever a script does with coDNS.open1, coDNS.read1 and coDNS.close1, in any order and with any names, it learns nothing of files whose name does not consist of ASCII letters, digits, underscores and dots with no dot in front, so nothing of other directories. open1 gives true exactly if the name is such a name and the file is there. Only one file is open at a time. read1 gives the lines of a file in their order, without line ends, and then false, if each line has fewer than 500 bytes.", "quantifier": "all sequences of calls, all names of any bytes, all directories, all files", "why_tests_cant": "Names can be any bytes and calls can come in any order; tests open a few files.", "anchors": ["coLunacyDNS/coLunacyDNS.c: coDNS_open1", "coLunacyDNS/coLunacyDNS.c: coDNS_read1", "coLunacyDNS/coLunacyDNS.c: coDNS_close1"]}
{"id": "C124", "title": "The servers written in the configuration of Deadwood are those asked", "statement": "A value of root_servers or upstream_servers that lists addresses with commas between them and spaces or tabs around them makes Deadwood keep exactly these addresses for the zone of that entry, and nothing else. When that zone is used as often as it has addresses, each address is chosen exactly once. A value with something that is not an address in it, or with more addresses than Deadwood can keep, is refused when Deadwood starts.", "quantifier": "all lists of addresses of both kinds, all blanks around them, all zones, all random numbers", "why_tests_cant": "A dropped or mangled server of a list stays unseen as long as another one answers; tests use lists of one or two servers.", "anchors": ["deadwood-github/src/DwRecurse.c: dwx_ns_convert", "deadwood-github/src/DwRecurse.c: dwx_ns_convert_mangle", "deadwood-github/src/DwRecurse.c: dwx_zap_whitespace", "deadwood-github/src/DwSocket.c: process_root_upstream_servers"]}
{"id": "C125", "title": "Text is kept when it is converted between Latin-1 and UTF-8", "statement": "l1toutf8 writes the UTF-8 of the Latin-1 text it reads, and utf8tol1 makes the same text of that again, for every text. utf8tol1 makes of every text in UTF-8 the same text in Latin-1, with a hash mark for each character that Latin-1 does not have.", "quantifier": "all texts of any length", "why_tests_cant": "There are endless texts; what a multi-byte character does depends on the bytes after it.", "anchors": ["utf8/l1toutf8.c: iso88591_to_utf8", "utf8/l1toutf8.c: main", "utf8/utf8tol1.c: main"]}
{"id": "C126", "title": "strip.control shows control characters and keeps all else", "statement": "Whatever strip.control reads, it writes no control characters. A control character is shown as its number with base 16 between angle brackets. Text without control characters is written as it is read.", "quantifier": "all inputs", "why_tests_cant": "Inputs can be any bytes of any length.", "anchors": ["tools/strip.control.c: main"]}
{"id": "C127", "title": "The timestamps of MaraDNS show the time", "statement": "With timestamp_type 0 or 1 the number shown is the number of seconds since 1970, at all times. With 6 the digits shown are those of the year, month, day, hour, minute and second in universal time, so that later times are greater. With 5, and with a 32-bit time_t, nothing is shown. Any other number shows the seconds since 1970.", "quantifier": "all times, all settings", "why_tests_cant": "Times after 2038 come late, and there are too many times to try.", "anchors": ["server/timestamp.c: set_timestamp", "server/timestamp.c: show_timestamp"]}
{"id": "C128", "title": "duende logs what the daemon says and starts it again only when asked", "statement": "What a daemon run by duende prints is logged, nothing left out; each line of up to 1018 bytes is one message, and no message has more than one line. A daemon that ends with the code 8 or by the signal HUP is started again, however often. After any other ending it is not started again, and duende ends with the code of the daemon, or with 1 after a signal.", "quantifier": "all outputs of a daemon, all sequences of endings", "why_tests_cant": "Outputs have any length and lines of any length; a daemon can end any number of times.", "anchors": ["tools/duende.c: log_helper", "tools/duende.c: handle_child_exited", "tools/duende.c: main"]}
{"id": "C129", "title": "duende leaves no process behind", "statement": "Whatever signals come to duende and whichever of its processes end, in whatever order: once duende has ended, every process it started has ended or was sent TERM; while it runs this holds for all but the daemon and the logger it looks after. HUP is passed on to the daemon that runs. TERM ends duende with the code 0, also when HUP comes at the same time.", "quantifier": "all sequences of signals and endings", "why_tests_cant": "The order of signals and endings is up to the system, and sequences have any length.", "anchors": ["tools/duende.c: handle_child_exited", "tools/duende.c: main", "tools/duende.c: handle_hup", "tools/duende.c: handle_term"]}
