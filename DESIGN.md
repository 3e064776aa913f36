# Formal model of MaraDNS / Deadwood — design

The sources in `/repo` (samboy/MaraDNS, pinned commit) are read as text and
modelled by hand in Lean 4 under `lean/Verif/`.  Nothing in `/repo` is built,
run or changed.

## Layout

* `Verif/<Area>/Model*.lean` – executable model, function by function.  Every
  definition cites the C file and lines it models and says what it simplifies.
* `Verif/<Area>/Spec*.lean` – small specifications that do not use the model.
* `Verif/<Area>/Lemmas*.lean` – helper lemmas.
* `Verif/<Area>/Props*.lean` – the property theorems (and, beside each one, an
  `example` showing that its hypotheses are met by a concrete case).

## Trusted base

* The Lean 4.33.0 kernel.
* The axioms `propext`, `Classical.choice`, `Quot.sound` (nothing else; no
  `sorry`, own axioms, `native_decide` or `bv_decide`).
* The faithfulness of the hand translation (each definition cites its source).
* What is *not* modelled unless said otherwise: the operating system (sockets,
  clock, file system: these appear as inputs), memory exhaustion (`malloc`
  returning 0), integer types wider than needed (unbounded `Nat`/`Int` is used
  except where the property is about wrap-around, see the comments), and
  Windows-only code.

Inputs of the models that stand for code or systems that are not modelled:

| Model | Taken as an input or taken to succeed |
|-------|----------------------------------------|
| `AclModel`, `ConfigModel` | `inet_pton` is a parameter |
| `BlockModel`, `BlockMakeModel` | `stat`, `open`, `read` of the block file succeed; its bytes are arbitrary |
| `HeaderModel`, `ReplyModel` | a connected UDP socket only delivers packets of its peer (operating system) |
| `TcpModel` | signedness of `char` is a parameter; `recv`/`send` are a schedule of results |
| `RemoteModel` | `cache_dns_reply` and `send_reply_from_cache` are parameters |
| `InflightModel` | the hash `inflight` is a map whose entries may lapse at any time |
| `DepthModel` | servers, sockets and cache contents are inputs; questions and packets are left out |
| `TrustModel` | IDs, random numbers, free places and failures to send come with the events; a socket only delivers packets of its peer (operating system) |
| `MararcModel` | the file system is a function from names to contents; `chdir` succeeds; dictionaries are maps (their implementation is C21/C22) |
| `LookupModel` | the big hash is a function of its keys that holds lower-case names, star records under an underscore and lists under type 255 (`Stores`); `udpany`, `easter_egg` are parameters; the assembly of reply packets is left out |
| `RgModel` | the 32-bit words are `UInt32`; the clock/pid used for seeding is input |
| all | `malloc` succeeds |

Deadwood code that is *not* modelled: logging, daemonisation, signal handlers, command line
parsing, socket set-up (`DwSys.c` beyond time and ACL; `DwSocket.c` start-up), the AAAA and
filter variants of the recursive packet classifier in `DwRecurse.c` beyond the functions named in
the files below, and the Windows parts.

## Conventions of the model

* A byte is a `UInt8`.  A Deadwood string (`dw_str`) is its contents plus the
  rest of its heap block, so that "length", "capacity" and stale bytes after the
  contents are all visible and out-of-buffer accesses are a distinct outcome
  (`Res.ub`).
* C undefined behaviour is a distinct outcome, never silently totalised.

## Plan per property

| Id | What is modelled | How it is proved |
|----|------------------|------------------|
| C01 | `DwStr.c` buffer primitives over contents+rest | invariant by induction over an operation list |
| C02 | push/pop/put/fetch of u8/u16 | round-trip law, byte arithmetic by `omega` |
| C03 | append family | exact result, case split on capacity |
| C04 | `dw_issame` loop | induction over the comparison loop |
| C05 | `dw_rfind`, `dw_qspop`, `dw_zap_lws` | refinement to list splitting, induction on items |
| C06 | `dw_filename_sanitize` | pointwise over the byte loop |
| C07 | `dw_filename_sani_two` | invariant of the loop about the previous byte |
| C08 | `dw_rotate` | refinement to list surgery |
| C09 | `dw_dnsname_convert` | refinement to a grammar; decode ∘ convert |
| C10 | `dw_dnslabel_chop` | refinement to list-of-labels `tail`; iteration by induction |
| C11 | `dw_get_dname`, `dw_get_dname_type` | loop invariant over the packet |
| C12 | `dw_get_dn_end` | loop invariant, fuel = the code's own cap |
| C13 | `dw_get_a_dnsttl` | induction over the code's bounded recursion |
| C14 | `dw_atoi` | induction over digits |
| C15–C18 | `DwHash.c` buckets + LRU list | refinement to an abstract LRU map, induction over histories |
| C19, C20 | file format of `DwHash.c` | encoder/decoder round trip; decoder on arbitrary prefixes |
| C21, C22 | `DwDict.c`, autogrow | refinement to a finite map; enumeration lemma |
| C23–C26 | `DwDnsStr.c` | exact characterisation / pointwise byte lemmas |
| C27–C30 | `DwCompress.c` | loop invariants, round trip by induction on labels |
| C31, C32 | `DwRecurse.c` selection and depth logic | modular arithmetic (173 prime), depth invariant |
| C33–C35 | ACL code of `DwSocket.c`, `DwSys.c` | bit-level characterisation of masks |
| C36, C37 | packet acceptance | decision logic stated outright |
| C38 | `get_key_n` | exact characterisation |
| C39 | `make_synth_ip6` | refinement to nibble parser |
| C40, C41 | `DwMararc.c` parser | automaton invariants over all inputs |
| C42 | synthetic replies | exact byte description, buffer bound |
| C43 | time-out handling | induction over local clients |
| C44 | TCP state machine | invariant over all read schedules |
| C45 | block hash | builder/lookup round trip |
| C46 | truncation hack | automaton over packet |
| C47 | RadioGatun | refinement to the published description |
| C48 | pending-request table | invariant over event histories |
| C49 | every `DwStr.c` operation | exhaustive per-operation lemma, witnesses where it fails |
| C50 | recency ring of `DwHash.c` as pointers (`FilaModel`) | refinement of the pointer ring to a list |
| C51 | block list use in `get_local_udp_packet` | composition of C45 with the query path |
| C52 | `make_dns_header`, `make_dns_packet` | exact byte description |
| C53 | TCP expiry | invariant over the main loop |
| C54 | hand-over of sub-query results | invariant linking place numbers to request serial numbers |
| C55, C56 | string library of the authoritative server (`JsStr*.c`) | refinement to lists and to "first match" |
| C57 | `dwc_decompress` on whole answers | relation between messages and records, induction over records |
| C58 | `dwc_compress` on whole answers | invariant of the stack of known names; composition with C57 |
| C59 | access lists of the authoritative server | grammar and meaning of lists as inductive relations; the parser yields the meaning |
| C60 | rights of TCP clients | count of matching entries; decision logic, witnesses for overlaps |
| C61, C62 | `proc_query` with the default settings | refinement to a decision on names (`Spec/Zone`), then exact conditions for each kind of reply |
| C63 | `proc_query` with any settings | every outcome of every branch is justified by the zones |
| C64 | parsing of the question | no access outside of the string, for every packet |
| C65 | parameters that are not set | reading files that do not name a parameter leaves its value alone, by induction over the nesting of files; the table of defaults against the manual's |
| C66 | `dos_protection_level` | the reply equals the one of the specification with the records left out; the proof of C61 with the stars and the delegation as parameters |
| C67 | associative arrays | refinement: the entries of the chains are a permutation of the entries of a dictionary; induction over the operations with a bound on the count |
| C68 | from the records given to the replies | invariant with ghost state (which nodes belong to which name and type) over a heap with freed nodes; induction over the records; composed with the answers of C61 |
| C69 | from the records of the zone files to the replies | the reader as a state machine (records read, name servers seen, SOA record kept back) proved equal to a specification of the whole file by induction over its records; the premise of C68 (name servers first) proved for the result; composed with C68 |
| C70 | compression of a reply | the compressor over a message given by its parts; invariant: every remembered place holds a readable name, and the output is never ahead of the input; a memory with a hole for the length that is written last; reading is shown to have one outcome |
| C71 | the records of a reply and its size | the loop over the chain proved equal to lists of places (what is shown) as long as the strings are large enough; the lists described by a relation (`Spec.Source.Shown`); taking records away by induction over the rounds; composed with C70 |
| C72 | round robin | the heap with its pointers: turning keeps the chains well formed and the records at their places; induction over the questions |
| C73 | UTF-8 in zone files | encoding of RFC 3629 (`Spec/Utf8`); decoding by the reader and encoding again compared by arithmetic on code points; induction over the string |
| C74 | text of zone files | grammar of files as data (`Spec/ZoneText`) with its text and its meaning; each field reader proved to read the text of its field whatever stands behind, then records, then files by induction over the lines; composed with C69 |
| C75 | `/opush` and `/opop` | meaning of a file split at the matching lines; C74 |
| C76 | addresses of AAAA records | the reader as a state machine on halves of bytes; a bound on the position kept by every step |
| C77 | mistakes in zone files | the induction of C74 with arbitrary text behind |
| C78 | decompression of messages | reading of names as a relation with and without a number of steps (`Spec/Unpacked`); field by field forwards (what is there is read) and backwards (what was read is there); the proof of C70 says that pointers refer to labels only, which bounds the steps |
| C79 | fetched zones | what is printed is the text of a file in the grammar of C74: each line by type, each record outside the zone two comments; then C78 for the way in and C74 for the way out |
| C80 | hostile zone transfers | every printed part is made of bytes that mean nothing to the parser; names by the suffix test on labels |
| C81 | zone transfers out | the parser run to the end is split into reads of one record (`parse_yields`); each record is put in the buffer as the specification says (method 2 of C69); batches by induction, with a bound for the buffer; messages byte by byte |
| C82 | the TCP door | bits of the lists as numbers of entries; decompressing a question gives the question (C78); every branch of a session sends nothing, the zone (C81) or a reply with the right number |
| C83 | mirrored zones | C81, C79, C74 and C69 put together: messages of the zone server are messages fetchzone reads, records are back in the file as they were, and the place of the SOA record among them does not matter |
| C84 | bailiwick | every path of `dissect` ends in one of six results (`Makes`), each with its key in the cache; at most fifteen authority records, the rest by a counterexample |
| C85 | referrals | marks of the authority and additional records characterised by the records (`NsMark`, `ArMark`), the string written entry by entry, read back as a list of servers (C34) |
| C86 | answers | marks of answers that begin with their aliases computed by recursion on the chain; the string is the packed form (C21) of the records kept; general soundness from the types of marks |
| C87 | safety and lifetimes of replies | from the six results; lifetimes by cases |
| C88 | pointers between records | the pass over the table by induction over the names visited, with the pointers as a function of the names visited so far; the invariant of C68 says what the table has |
| C89 | from text to bytes | C74 and C69 give the records, then C90 |
| C90 | the server over any sequence of packets | invariant (`Ready`): the records in memory are those at the start, except that the chain of each name and type is in some order; a heap that agrees with it as far as a reply can see (`masked`) is one for which C71 holds; one step for each kind of reply, then induction over the packets |
| C91 | taking turns | induction over a session of C90, whose steps say how the order changes |
| C92–C96 | answering from the cache | the code as a program of calls on the cache; by C04–C07 the hash does the same as the abstract cache for each call, hence for any session (`session_run`); invariant `Inv` of the abstract cache, and `Tends`: a question changes at most its own entry, and neither its expiry nor its kind.  C92 follows one entry over a session (`Kept`), and the reply is a whole message by C28/C58/C52 joined (`answer_message`, `compress_fits`) |
| C97 | IPv6 texts of scripts | what the two passes do over a group, by induction over the groups |
| C98 | names in scripts | loop of `humanDNSname` by induction over labels; injectivity of the text form; loop of `human2DNS` likewise, with the random bits arbitrary |
| C99 | replies to clients | `endThread` computed exactly (`endThread_body`), then the message from its parts |
| C100 | replies and scripts | invariant (`Waiting`): what waits for a client came from a question of this client, and its co-routine from the script started with it; induction over events |
| C101 | number of replies | replies sent plus questions that wait, for each client and ID, by induction over events |
| C102 | replies of other servers | the scan by induction over the records up to the first address |
| C103 | memory | the functions succeed under the invariant of C100; witnesses otherwise; number of questions that wait by induction over events |
| C104 | questions for all records | the bytes are computed and read back as a message; a step of C90 that changes nothing |
| C105 | from a packet to the cache | a message off the wire is read as records behind the question, and the question in lower case (simulation of the two ways to read names); then C13, C23, C84, C86 |
| C106 | what MaraDNS answers, Deadwood keeps | the pointers of a compressed message lead to places reached by labels from the question or behind it (`Placed`, an invariant of the compressor), so every message the server sends is one `C105` is about; then case analysis on what the server says (C90) |
| C107 | aliases are answered with the aliases and the records at the end | refinement of the string building loops (`linkLoop_eq`, `finalLoop_eq`, `created`) to `Spec.links`, joined with what two replies leave in the cache (`alias_exact`, `answer_exact`) and with the packet made of it (`answer_message`); memory given back is a state of the model |
| C108 | several clients | answers: induction over the number of passes over a packet; referrals: C84 and C85 at the lists of servers the first pass leaves |
| C109 | the chain of trust | ghost state (what was heard from which list of servers); `Spec.Trusted` and `Spec.Answered` as inductive predicates over what was heard; invariant (`Inv`) of the cache, the requests and their sockets, kept by every event |
| C110 | a delegation in a MaraDNS zone is where Deadwood goes on | what the server says (C90), read as a message (C106), is a referral that the resolver takes apart (`packet_referral`, C105); the list of servers it makes is that of the zone's records |
| C111 | the nearest servers known are asked | induction over the labels of the name (`climb_exact`), with the loop limit of 260 shown never to be met; configured elements are an invariant of all events |
| C112 | no packet whatsoever makes Deadwood do anything undefined | every function on the way from the packet to the cache is total on arbitrary strings (`Fine`: an error or a value with a property); what saves the ones that do not check is the control byte at the end, which no name of a question contains, and that a block for aliases has at least 259 bytes; the lists of servers left behind are an invariant of all sequences of packets (`Legible`) |
| C113 | nobody speaks for others, whatever is sent | the invariant of C109 does not depend on what a message is: it is proved for any notion of what may be believed (`Belief`) that grows with what was heard and that one packet which is taken does not break; for arbitrary bytes the notion is who was asked and for what (`Spec.Vouched`, `Spec.Worded`), and what C112 says of one packet is enough |
| C114 | the authoritative server survives anything | what `dlabel_length` lets through is either a name or odd (`Lookup.Odd`: it ends at a pointer or a star byte); everything stored is stored under a name or a star (`Lookup.Only`, from the invariant of the big hash), so nothing is found for what is odd; for names the outcome is bound to records given (`Server.Bound`), for which C90 has the step |
| C115 | where questions go | `Spec.NsHost` is a server in a list, `Spec.Packed.pick` the address of an answer that a random number stands for; `Trust.fromAnswer_exact` says that what is read backwards through the table of offsets is this address, `Trust.getAddr_told` and `Trust.connect_told` that what is sent goes there (`Trust.Tells`), `Trust.finish_glue` the same once the answer for the name has come |
| C116 | the configuration file | `Spec.MaraRc` gives the statements, how they are laid out on a line and what a file of them means, without the parser; `Rc.parse_text` and its like compute every search of `parseline` on such a line, `Rc.readMararc_exact` is the refinement by induction over the file; `Rc.parseline_safe`, `Rc.parseline_within` and `Rc.error_first` are about any lines; `Rc.mt_js` joins the searches to the byte-level model of the string library |
| C117 | reading files line by line | `Spec.FileLines` says what a line is; `Getline.At` is the invariant that ties the buffer, the place in it and the rest of the file to the bytes that are left, and the place to the number of bytes read modulo the block; `getline_whole` is the step; `readAll_exact` and `mararc_lines` are inductions over the lines; `mararc_exact` composes with C116 |
| C118 | LOC, NSAP, WKS and NAPTR data | `Spec.Rare` writes the records as data with their text and meaning; each loop is proved to read the text of its field by induction over digits, bytes, sizes or ports, with the last byte read as the state between them; the bitmap by induction over the ports (`setPorts_ok`), bit by bit; the size byte by induction over the divisions by ten |
| C119 | the log of MaraDNS | `Spec.Log` has printable characters and a decoder; escaping is proved printable and invertible by induction over the bytes, with a table for one byte; the line of a question follows from what decompression and the translation of names do; the forged line is a question made for any text |
| C120 | the serial number made from the time of a file | `Spec.Serial` has the order of RFC 1982 and a calendar that only knows the day after a day; by induction over days the written date rises; the rest is arithmetic on the division; joined with C81 for what another server is sent |
| C121 | the clock of Deadwood | `Spec.Clock` has moments in nanoseconds and what a system says about them, with 32 or 64 bits; arithmetic, joined with C16 for lifetimes |
| C122 | the log of Deadwood | `Spec.Journal` splits a log into lines and reads bytes and addresses back; tables for one byte, induction over bytes, numbers and messages |
| C123 | files read by scripts | `Spec.OneFile` has allowed names, lines and calls; confinement is that two directories which agree on allowed names cannot be told apart by any sequence of calls (induction over calls); a table for one byte, with both kinds of `char`; induction over lines |
| C124 | servers of the configuration | `Spec.Servers` has the list of servers a line stands for; induction over the items of the line, taken from its end, with what is in the buffer as invariant; then C31 (`every_server_tried`) for who is asked |
| C125 | Latin-1 and UTF-8 | the specification is `String.utf8EncodeChar` of the library of Lean; a table of the 256 characters, then induction over the text |
| C126 | control characters | tables for one byte, then induction over the text; numbers as `Nat.toDigits 16` of the library writes them |
| C127 | timestamps | `Spec.Stamp` reads the digits of what is shown as one number; digits by induction over their number; order from the calendar of C120 |
| C128 | duende | `Spec.Daemon` names endings and the numbers they have; induction over the output, and over the list of endings |
| C129 | processes of duende | invariant over all rounds: every process started has ended, was sent TERM, or is one of the two looked after |

Where the code turns out to violate a property, the negation is proved with a
concrete witness, the theorem about the part that holds is named `_partial`, and
the finding is listed below.

## Files and sources

| Lean | C source (under `/repo`) |
|------|--------------------------|
| `Deadwood/StrModel`, `Str2Model` | `deadwood-github/src/DwStr.c` |
| `Deadwood/HashModel`, `FilaModel`, `HashFileModel` | `DwHash.c` |
| `Deadwood/DictModel` | `DwDict.c` |
| `Deadwood/DnsStrModel` | `DwDnsStr.c` |
| `Deadwood/CompModel` | `DwCompress.c` |
| `Deadwood/FromCacheModel` | `DwDnsStr.c` (`dwc_process`), `DwUdpSocket.c` (`get_reply_from_cache`), on the hash of `Deadwood/HashModel`; a string from the cache has one byte of room behind it, sending succeeds, logging is left out |
| `Deadwood/AclModel`, `AclParse`, `ConfigModel` | `DwSocket.c`, `DwSys.c` |
| `Deadwood/HeaderModel`, `SynthModel`, `SynthReplyModel`, `ReplyModel`, `RemoteModel`, `InflightModel` | `DwUdpSocket.c`, `DwSocket.c` |
| `Deadwood/TcpModel` | `DwTcpSocket.c` |
| `Deadwood/RgModel` | `DwRadioGatun.c` |
| `Deadwood/HalfSipModel`, `BlockModel`, `BlockMakeModel` | `DwBlockHash.c`, `tools/blockhash/blockHashMake.c` |
| `Deadwood/MararcModel` | `DwMararc.c` |
| `Deadwood/NsModel`, `DepthModel` | `DwRecurse.c`, `DwUdpSocket.c` |
| `Deadwood/DissectModel` | `DwRecurse.c:174-2406` (`dwx_dissect_packet`, `dwx_cache_reply` and what they call, without sending packets and without the upstream lookups for names of servers and aliases) |
| `Deadwood/IncomingModel` | `DwUdpSocket.c:929-1008` (`cache_dns_reply`, for packets that are not truncated); the receive buffer has at least three bytes more than the packet |
| `Deadwood/AliasModel` | `DwRecurse.c:1838-2192` (`dwx_make_one_cname_rr` to `dwx_make_cname_reply`, up to where the answer is put in the cache); that `dwc_compress` may fail, the packets to the clients who wait, and `dwx_send_glueless_cname_upstream` are not modelled |
| `Deadwood/TrustModel` | whom Deadwood asks and believes, over any sequence of events: `get_upstream_ns`, `get_upstream_ip` (`DwSocket.c`), `make_remote_connection`, `get_remote_udp_packet`, `get_rem_udp_packet_core` (`DwUdpSocket.c`), `dwx_ns_getip`, `dwx_handle_ns_refer`, `dwx_do_ns_glueless`, `dwx_do_glueless_new`, `dwx_glueless_done`, `dwx_handle_cname_refer`, `dwx_incomplete_cname_done`, `dwx_cname_in_cache`, `dwx_cached_cname_done` (`DwRecurse.c`), on top of `IncomingModel`, `DissectModel`, `AliasModel` and `NsModel`; the cache is a map with fixed entries (its implementation is C15–C18), elements may lapse at any time; TCP and the packets to clients are left out |
| `Mara/JsModel` | `libs/JsStr.c`, `libs/JsStrOS.c`, `libs/JsStrCP.c` |
| `Mara/JsList` | the same, on lists of bytes, with bridges to `Mara/JsModel` |
| `Mara/AclModel` | `parse/ParseIpAcl.c`, `server/MaraDNS.c` (`check_ipv4_acl`), `tcp/zoneserver.c` (`gettcp`, access part) |
| `Mara/RcModel` | `parse/ParseMaraRc.c` (`parseline`, `read_mararc` and what they call); strings are their contents, the file is a list of lines, dictionaries are maps, messages are left out |
| `Mara/GetlineModel` | `libs/JsStrOS.c` (`js_buf_read`, `js_buf_getline`, `js_buf_eof`) and the loop of `read_mararc`; strings are their contents, `read` yields all that is asked for and there |
| `Mara/RareModel` | `parse/Csv2_rr_wks.c`: `csv2_get_hex`, `csv2_get_wks`, `csv2_get_int`, `csv2_get_lon_lat`, `csv2_get_loc`, `csv2_get_naptr` (only for files that do not use tildes between records), on the streams of `Mara/Csv2Stream`; memory is available, error messages are left out |
| `Mara/LogModel` | `libs/JsStrOS.c`: `show_esc_stdout`, `js_show_stdout`; `server/MaraDNS.c`: `debug_show_ip`, what the main loop logs of a packet (4643-4724), what `udperror` logs (522-531) with `zjlog`; the time stamp is given, messages about why a query was bad and addresses of version 6 are left out, English messages |
| `Mara/LookupModel` | `server/MaraDNS.c` (`proc_query` and its helpers), `dns/Queries.c` (`dlabel_length`, `read_hdr`), `dns/bobbit.c`, `server/MaraBigHash.c` (`get_rtype`, `change_rtype`) |
| `Mara/HashModel` | `libs/MaraHash.c` (without the tuples and the reading of the constant) |
| `Mara/BigHashModel` | `server/MaraBigHash.c` (`add_rr_to_bighash` and what it calls), `server/MaraAnyChain.c` (`any_add_rr`, `any_zap_rr`); the dictionary is abstract (C67), memory is available |
| `Mara/ZoneModel`, `boot` in `Mara/ZoneProps` | `parse/Csv2_database.c` (`csv2_add_rr` and what it calls for methods 1, 2 and 3), `parse/Csv2_main.c` (`csv2_parse_zone`, `csv2_parse_main_bighash`) from the records that the parser gives; the limit of 100000 records and the time stamp that the serial is made from are not modelled |
| `Mara/Csv2Stream`, `Csv2Model`, `readText` in `Csv2Props` | `parse/Csv2_read.c` (the stream of characters; a file is a list of bytes, `/read` a function from names to contents), `parse/Csv2_parse.c`, `parse/Csv2_rr_a.c`, `parse/Csv2_rr_txt.c`, `parse/Csv2_rr_aaaa.c`, `parse/Parse_ipv6.c`, the loop of `csv2_parse_zone` (`parse/Csv2_main.c`).  Error messages are left out, and so are NAPTR records and here the data of WKS, NSAP and LOC records (a file with one of these has the outcome `other`; the parsers of the latter three are in `Mara/RareModel`).  A record without data (a bare address with a number above 255) makes `Outcome.rrs` give up, since what `csv2_add_rr` does with it is not modelled.  All files of `bootText` have the same time stamp |
| `Deadwood/ClockModel` | `deadwood-github/src/DwSys.c` (`set_time` with `clock_gettime`); the clock of the system is a parameter; the Windows branch and `FALLBACK_TIME` are left out |
| `Deadwood/LogModel` | `deadwood-github/src/DwSys.c` (the functions that write to the log, for Unix); calls with numbers or three fixed strings are texts; where calls are made is left out |
| `Mara/SerialModel` | `parse/Csv2_database.c` (`csv2_set_soa_serial`, the Unix branch); `stat` and `gmtime_r` are parameters, and C120 assumes of the latter that it follows the calendar (`Follows`); no overflow of 64 bits |
| `Mara/CompModel` | `dns/Compress.c` (everything `compress_data` uses), `decomp_get_label` of `dns/Decompress.c`, with the limits of an `AUTHONLY` build; the table of `dns/Compress_rrdescs.h` is transcribed; allocations succeed |
| `Mara/DecompModel` | `dns/Decompress.c` (`decompress_data` and what it calls); sizes of the strings are parameters; allocations succeed |
| `Mara/FetchModel` | `tcp/fetchzone.c` (from the first message on, and the reading of the argument), `dns/Queries.c` (`read_rr_h`, `read_soa`, `hname_translate`, `email_translate`), `parse/Csv2_esc_txt.c`, `libs/JsStrOS.c` (`safe_esc_stdout`), `tcp/libtcp.c` (`fold_case`), `dns/bobbit.c`; the connection is a list of messages, the byte behind a string is a parameter |
| `Mara/ServeModel` | `parse/Csv2_main.c` (`csv2_parse_zone_zoneserver` and what it calls); the file is its text, writing to the connection succeeds, the second question arrives; mistakes before the first loop has ended are left out |
| `Mara/DoorModel` | `tcp/zoneserver.c` (`serve_zone`, `get_query`, `convert_query`, `srng`); one connection is the bytes the client sends, the other server is a function from questions to replies, the cipher of `srng` is a parameter; zones in the old format (`csv1`), time limits, logging, `inetd` and the limit of processes are left out |
| `Mara/ReplyModel` | `server/udpsuccess.c`, `squeeze_to_fit`, `make_hdr` and `read_hdr` of `dns/Queries.c`, `udperror` of `server/MaraDNS.c` (the error without question); `AUTHONLY`; records in memory as a list of nodes with places as pointers; what only the recursive half sets (`ptr`, `zap`, `expire`, the `ip` of a CNAME) is left out; sending succeeds |
| `Mara/LinkModel` | `server/MaraBigHash.c` (`add_an`, `answer_ip_query`, `make_ddip`); the order in which the table is visited is a parameter; warnings are left out |
| `Mara/StarModel` | `server/MaraDNS.c` (`udpstar`, `make_synth_ns_record`, `udpnotfound`, `udperror`, the reply of `ddip_check`) |
| `Mara/ServerModel` | `server/MaraDNS.c` (`proc_query` with what is sent and what becomes of the records); of `udpany` the reply of RFC 8482 (setting `rfc8482`, the default); a query handed to `easter_egg` is an error; the name repeated in an error is a parameter |
| `Co/TextModel`, `Co/ServerModel` | `coLunacyDNS/coLunacyDNS.c` (`ip6Parse`, `humanDNSname`, `human2DNS`, `endThread`, `newDNS`, `resumeThread`, `processQueryC`, the loop of `runServer`); the Lua interpreter with the script is a parameter, so is `inet_addr`; events come in any order, a timeout may come at any time; numbers in Lua are integers; contents of fresh memory, random numbers and failures to send come with the events; logging and the debugging entry `rawpacket` are left out |
| `Co/FileModel` | `coLunacyDNS/coLunacyDNS.c` (`coDNS_open1`, `coDNS_read1`, `coDNS_close1`); the directory is a function from names to contents, `fgets` as the standard says |
| `Deadwood/ServersModel` | `DwRecurse.c` (`dwx_ns_convert` and its helpers), the check in `process_root_upstream_servers` of `DwSocket.c`; `inet_pton` is a parameter; the dictionaries the lines come from and the cache they go to are not in this model |
| `Mara/TextToolsModel` | `utf8/l1toutf8.c`, `utf8/utf8tol1.c`, `tools/strip.control.c`; standard input is a list of bytes, errors of reading and writing are not in the model |
| `Mara/StampModel` | `server/timestamp.c`; the clock, `gmtime`, `localtime` and `asctime` are parameters |
| `Mara/DuendeModel` | `tools/duende.c`: the loop of `log_helper`, `handle_child_exited`, and the outer loop of `main` for endings of the daemon; no processes, pipes, signals to duende, or endings of the logger; the logger is taken to read all output before it is stopped |
| `Mara/DuendeLoopModel` | `tools/duende.c`: both loops of `main` with processes as numbers, signals to duende at the top of a round, and results of `waitpid`; `fork`, `pipe`, `kill` and `waitpid` do not fail |
| `Interop/*` | no model of its own: joins `Mara/ServerModel` and `Deadwood/IncomingModel` |

## Findings

Places where the code does not do what a user would rely on.  Each line names the theorem that
proves it (a concrete witness) unless it says "read".

### Strings
* `qrappend_can_make_unusable`: the quick append can leave a string whose length equals its
  capacity; every later call refuses such a string.
* `putU8_end_lost`, `putU16_minus2_grows_by_three`: writes at the end of a string are lost, or
  make the string longer than asked.
* `atoi_overflow_ub`: a long number overflows a signed integer.
* `getDnEnd_may_pass_end`: the end of a name may be reported beyond the end of the packet.
* `ttl_top_bit_year`: a TTL with its top bit set counts as a year.

### Cache and dictionaries
* `pin_over_evictable_is_ub`: marking more entries as permanent than the cache can hold leads to
  a null pointer.
* `load_junk_is_kept`: junk after a valid entry of the cache file becomes entries.
* read: an entry over 2^24 bytes or with a negative expiry stops the reload of the cache file;
  a file with a wrong magic number leaves its handle open; growing a dictionary loses elements
  of a chain beyond 10000.
* On systems whose times have 32 bits the clock of Deadwood falls back by 136 years in April 2115 (`Dw.Clock.clock_falls`): the
  sum is made with 32 bits, although the smallest time allowed would tell times apart until 2156.

### Names, packets and compression
* `rotate_refuses_authority`: replies with authority records are not rotated.
* `decompDname_accepts_loop`, `decompDname_accepts_long`, `decompDname_drops_labels`: the
  decompressor accepts some looping or overlong names and may drop labels.
* `dnameSame_two_pointers`: comparison follows only one pointer.
* `inBailiwick_can_read_outside`: the bailiwick test can read beyond a malformed name.
* `makeDnsStr_short`, `compress_self_loop`: see their comments.
* `compress_drops_label`: a label that does not fit in the 515 bytes of a compressed answer is
  left out and compression goes on, so a record can be sent with another owner name.
* read: an answer that expands to 2048 bytes or more loses pieces silently; RDLENGTH is not checked against the name for name types; NS records beyond the
  first 15 are not checked for bailiwick.

### Access lists and configuration
* `slash_without_bits_admits_all`, `bad_bits_admit_all`: an ACL entry such as `10.0.0.0/` or one
  with an unreadable number of bits admits everybody.
* a malformed ACL address ends the list; a number of bits too large is a shift out of range.
* `minTtl_beats_maxTtl`: the lower limit for TTLs wins over the upper one.
* `long_string_cut`, `add_string_lost`: parameter values over 383 bytes are silently cut or
  ignored.  `big_number_ub`: a long number overflows.
* `execfile_escapes`: only the first 200 bytes of an included file's name are cleaned.
* `missing_file_counts`: an included file that cannot be opened is skipped without a message,
  and the nesting count is not taken back.
* `unset_uid_differs`: the manual gives 707 for the user and group if they are not set; it is 99.

### Block lists
* `empty_file_lookup_is_ub`, `make_empty`, `last_line_without_newline_is_lost`,
  `blocklist_null_pointer`.
* read: the tool opens its output without truncating it.

### Replies
* `any_reply_overreads`, `getLocal_any_overreads`, `any_reply_uninitialised`: the made-up reply
  to ANY reads beyond the query and sends uninitialised bytes.  `edns_without_class_leaks`: an
  EDNS query without a class does so too.
* `salvage_accepts_missing_answer`, `second_client_uncut`: truncated upstream replies.
* `timeout_others_silent`, `resurrect_single`, `resurrect_second_lost`: at time-out only some of
  the clients waiting for the same question get the stale answer or the failure notice.
* read: the SERVFAIL reply repeats the question in lower case.
* `tcp_is_never_answered`: `tcp_process_query` looks in the cache without the address of a client,
  and `get_reply_from_cache` gives up at once in this case.  So no question over TCP is answered from the
  cache, and names on the block list are looked up upstream when asked for over TCP.
* read: a question for mail exchangers gets no reply at all if `reject_mx` is set (the default), so that
  clients have to wait for their time-out; an answer with more than a year left is neither turned nor aged; an expired
  entry of the block list that is used after all servers have failed makes a server failure of the question; an answer
  whose reply would take 515 bytes or more is fetched from upstream every time.

### TCP
* `signed_length_refused`: where `char` is signed, queries whose length has a low byte of 128 or
  more are refused.
* `eof_keeps_place`: a client that closes its side keeps its place for ever.
* `forward_loses_end`: the end of a reply is lost if the client does not take it at once.
* read: a reply may reach another TCP client after its place was re-used; TCP queries are never
  answered from the cache.

### What is believed of a reply
* C105: how long an answer is kept is decided by its aliases and the first record behind them; records further down may allow
  less (`Dw.Incoming.packet_outlives`).  Lifetimes of less than a minute are kept for a minute.
* **Cache poisoning.**  `dwx_check_bailiwick` looks at the first fifteen authority records only; `dwx_make_ns_refer`
  takes the longest name of all NS and SOA records.  A reply with sixteen authority records, of which the last is
  `bank.f. NS ns.a.e.`, is believed by a resolver that asked the servers of `e.` for `w.a.e.`: the servers of the first fifteen records
  (with glue of the attacker's choice) become the servers of `bank.f.` and of everything below it in the cache
  (C84, `kept_outside`).
* A referral none of whose records may be believed makes an empty list of servers, which replaces the list of this request and
  is put in the cache as that of the root (`nobody_kept`).  The configured root servers are immutable entries and stay
  (DwHash.c:642-645), but this request has nobody left to ask.
* With at most fifteen records, the name of the referral may be that of an SOA record below the name the NS records are for.
* Names are compared in at most 260 steps, one for each label and byte; a longer name is equal to no other, not even to itself
  (`Spec.cost`).
* Only the first 7 answers are looked at (32 once there was an alias): `answer_late`.  At most 31 servers can be in a referral;
  with more it is refused as a whole.
* Aliases are kept one after another, and the name the last one leads to is read by `dw_get_dname` with a limit of 260 that
  counts from the beginning of the string: after more than 258 bytes of aliases the name is not followed (`alias_stuck`);
  nor is a name with a control character.
* Questions for all types: unrelated answers make an answer with no records (`any_empty`).
* The chain of aliases is followed from the first answer record, whatever that is: a record of another type in front of
  the aliases ends the chain after the first of them (the rest is then asked for again).
* The class of glue records is not looked at; the owner of the SOA record of a denial is not compared with the zone.

### Several clients, and the chain of trust

* **Cache poisoning.**  `get_remote_udp_packet` judges a packet once for each client that waits (up to `max_inflights`,
  8 by default), and each time by the list of servers the request has by then.  If a server replies with a
  referral it may not make, the first time leaves the empty list, as it should; the empty list `[0,16]` passes for the list of the root,
  so the second time the same packet is believed: servers of `v.c.` that are asked by two clients for `x.v.c.` become the servers
  of `c.` in the cache (C108, `Dw.Trust.refused_then_believed`; from the question to the cache: C109, `Dw.Trust.trust_broken`).  Whoever
  serves a zone can ask twice themselves.
* For the same reason a good referral that arrives when two clients wait leaves nobody to ask: the second time it is judged as a reply of
  the servers it refers to, which may not refer to themselves (`Dw.Trust.referral_spent`).  The clients wait until the request times out.
* `dwx_send_glueless_cname_upstream` does not look whether the request it is told about still waits (`dwx_glueless_done`
  does), and the aliases put in front of an answer are those in the cache when the answer arrives.
* `dwx_get_rr_from_answer` takes the four bytes behind any A record for an address, without a look at the length of its data.
* When the cache has no place for a referral, the request has the new list of servers but the old socket, so that the next packet of the old
  server is judged by the new zone (this is why `Sock.list` and `Slot.ns` are kept apart in the model).
* The servers of a zone are kept under its name as the packet of the referral writes it, and looked up in lower case.  If the servers
  above write the name with a capital letter (and do not compress it), the referral is used for the question at hand and never found
  again: each further question starts at the servers above (C111, `Dw.Trust.upper_forgotten`).
* The numbers of records of a packet are not compared with the records in it
  (`dwc_decompress` writes one place for each record, `dwc_make_dns_str` reads as many as the packet says): with counts that are too
  large, the data of the last record are read as places of records (C112, the packet `Dw.Incoming.liar`).  No undefined behaviour follows,
  and what such a packet leads to is bounded as for other packets (`Dw.Dissect.any_inside_partial`).
* `Trust.entryName_far`: of a server that is known by its name only, the name is read with a limit of 256 counted from the
  beginning of the list (`dw_get_dname(list->str + 3, offset, 256, 0)`, DwRecurse.c:2732), so servers whose entries begin 254
  bytes into the list or later are never used, nor are their addresses asked for.  Fifteen IPv6 addresses before it are enough.

### Answers for aliases

* `dwx_create_cname_reply` gives back `temp` in its loop and does not reset the pointer.  If the whole answer then takes
  1021 to 1023 bytes, it leaves by `catch_dwx_create_cname_reply`, where `dw_destroy(temp)` reads `temp->sane` in memory that
  has been given back, and gives it back again if that happens to be 114 still.  This needs two aliases or more, and
  whoever serves the names can choose the lengths (`Dw.Alias.alias_used_after`, `Dw.Alias.alias_used_after_witness`).
* If the reply at the end of the aliases is that there is no such name or no such record, `dwx_make_cname_reply` gives up since
  there are no answers: nobody is told anything.  `dwx_alt_cname_reply`, meant for this, is not reached with
  such replies (`Dw.Alias.alias_denied`).
* The alias records are told and kept with the time to live of the records at the end: an alias for a minute is kept for a
  day if it leads to a record for a day (`Dw.Alias.alias_answer`).
* Of more than twelve aliases the first twelve are told, so that they do not lead to the records told with them; with more than
  fifteen records in all, the last are left out (`Dw.Alias.alias_cases_partial`).

### Pending requests
* `last_place_lost`, `lost_forever`: a fresh question that takes the last free place and needs the
  address of a name server first loses the place for ever.
* `chain_result_to_stranger`: the answer at the end of a chain of two CNAMEs can be given to (and
  cached for) an unrelated request that got the place of the one that wanted it.
* A sub-query for an address that itself needs an address first is given up at once
  (example beside `chain_result_to_stranger`).
* read: the client whose question first needs the address of a name server is forgotten
  (`forward_local_udp_packet` returns before recording it); `dwx_do_glueless_new` allows a
  place number one too large and never asks for recursion.

### Strings of the authoritative server
* `readuint16_short_stale`, `readbyte_empty_stale`: reading a number from a string that is too
  short reads stale bytes.
* `insert_negative_refused`, `fgrep_offset_refused`: the negative offsets that the comments
  document are refused.
* `fgrep_empty_ignores_offset`, `notmatch_empty_list`: empty expressions and lists.
* read: `js_atoi` overflows; `js_readuint32` gives 0xfffffffe for 0xffffffff.

### Configuration of the authoritative server
* `long_line_hangs`: with a line of 256 bytes or more (a comment, say) in the first block of 1024 bytes
  of its configuration file MaraDNS never starts: it reads the same line as an empty one for ever.
  Where a block begins in such a line it is cut short without a message (`long_line_cut`) or reported
  (`long_line_refused`).
* `unterminated_torn`: a last line without line end is torn in two if a block begins in it.
* `misspelt_dictionary_ignored`: an entry of a dictionary whose name is misspelt is dropped without
  a message, while a misspelt variable stops the program.
* `long_addition_dropped`: what `+=` adds is dropped without a message if the value would get
  longer than 255 bytes.
* `comment_matters`: a plus sign, a left bracket, a backslash or a single quote in the comment at
  the end of a line makes the line wrong; so does `{}` at the end of a file without a line end,
  while text behind `{}` goes unnoticed.
* read: `read_dvar` and `write_dvar` use the number -2 of an unknown name as an index before they
  look at it; `read_mararc` does not call them with such a name.

### Access lists of the authoritative server
* `slash_without_number_admits_all`: `10.0.0.0/` or `10.0.0.0/x` admits everybody.
* `short_address_accepted`: `10.1` is read as 10.1.0.1.
* `broadcast_lost`: an entry 255.255.255.255 is taken for the end of the list and overwritten.
* `two_entries_turned_away`, `two_entries_give_recursion`: the TCP server adds a right once for
  every matching entry, so overlapping entries turn a client away or give it recursion.
* read: a tab after an entry is removed only if the first byte of the list is a tab.

### Answers of the authoritative server
* `class_not_checked`: the test of the class joins its halves by "and"; classes below 256 are
  answered like IN.
* `long_names_fail`: names of 254 and 255 bytes always get a server failure.
* `root_caa_fails`: a CAA question for the root gets a server failure.
* `star_cname_above_lost`: a star CNAME more than one label up is not found.
* `capitals_denied`: with `bind_star_handling` 0, an existing name written in capitals is denied.
* `strict_denies`, `strict_star_cname_lost`: with `bind_star_handling` 2, a name that a star record
  of another type stands for is denied, and a star CNAME in a zone is never used.
* `glue_answered`: records below a delegation are sent as an authoritative answer.
* `default_zone_capitals`: the default zone compares letters exactly.
* `underscore_ends_name`: a question may end its name with an underscore.
* `dotted_quad_id`: questions for a name like an address fail with the identities 0 and 65535.

### Associative arrays of the authoritative server
* `count_wrong`: resizing counts every entry again, so the table grows at about a quarter of its
  size, not at the half that the comment names.
* `hash_overflow`: from 2^25 chains on, hashing a key can overflow an `int`.

### Records given to the authoritative server
* `late_ns_dangling`: if a zone gave an address for its own name before its name servers, and
  another zone has delegated that name, the address record would be left pointing to a freed
  record.  The reader of zone files puts the name servers first, so this is a premise of C68.
* Only names directly below the name of a zone, and the name itself, are marked as decided by the
  zone; for deeper names the records of all zones are put together.
* Stored keys of 256 bytes or more (names of 254 and 255 bytes) get no marker for their name.
* The zone name in `csv2["..."]` is not put in small letters; if it has capitals nothing in the zone is
  marked as decided.

### Zone files

* NSAP: the letters of hexadecimal numbers are taken for 0 to 5 instead of 10 to 15 (`look - 'a'`, Csv2_rr_wks.c:319), so an
  address is served right if and only if it has no letters (`nsap_exact_partial`, `nsap_letter_wrong`).
* WKS: the last port is put into the list without counting it (Csv2_rr_wks.c:177), so it is not in the bitmap
  (`wks_exact_partial`); a record with one port has none (`wks_one_port`).  `25, 80` has port 0 in it (`wks_blank_port`).
* LOC: a wrong direction gives zero, not a message (`loc_wrong_zero`); 597 degrees overflow an `int` (`loc_degrees_ub`); an
  altitude without `m` at the end of a line goes on with the next line (`loc_next_line`).
* NAPTR: the name is read with an empty zone (Csv2_rr_wks.c:689), so `_sip._udp.%` is served as `_sip._udp.`
  (`naptr_zone_lost`); `.`, which RFC 2915 asks for where there is a regular expression, is refused (`naptr_root_refused`).
* `csv2_is_zonetop` compares a name with the name of the zone before capitals are made small
  (Csv2_database.c).  A name server record for `Example.com.` at the top of the file of `example.com.` is
  therefore not taken as a name server of the zone: name servers are made up and sent next to it
  (`Mara.Zf.capital_ns_made_up`).
* The name of a zone is kept in a string of 128 bytes (`csv2_zone_to_udpzone`); from a zone whose name
  has more than 125 bytes nothing is loaded.  With more than 112 bytes no SOA record is made up, and
  nothing is said about it.  For the root zone nothing is made up.
* A file with only a SOA record gets no name servers: they are made up at the first record which is
  neither SOA nor a name server of the zone.
* `*.name FQDN4 address` makes a PTR record whose data begins with the byte for `*` (95), which is no name
  (see "Compression of replies").
* The comment before `csv2_synthesize_soa` says that the minimum is 1800; the code puts 3600.
* `csv2_append_utf8` loses a byte of the characters U+0800 to U+0FFF and U+10000 to U+3FFFF: the leading byte is
  made only if it would have bits of the code point in it (`Mara.Csv2.utf8_lost`, `utf8_three_bytes`, `utf8_four_bytes`).
  The length of the string counts the lost byte, so the record is malformed.
* `/opop` does not decrement `ostack_height`: the ninth `/opush` of a file ends the reading (`Mara.Csv2.pushed_nine`).
* `ip6_to_raw` writes in front of its buffer for an address with too many groups after `::`
  (`Mara.Csv2.ip6_before`; at least ten colons are needed, `address_safe_partial`), loses the first of nine groups
  (`ip6_nine`) and accepts `1:2` (`ip6_two`).  `1.2.3.` is accepted as an IPv4 address (`ip4_three`).
* `js_atoi` overflows for numbers above 2147483647, such as times to live (`Mara.Csv2.ttl_large`); the number of a RAW
  type already above 2147383647.
* After a backslash and a space in TXT or RAW data, a failing append frees the same string twice (Csv2_rr_txt.c:510-514; seen in
  the text, the model says undefined).
* A bare address with a number above 255 is passed over, while the same with `A` in front ends the reading
  (`Mara.Csv2.ip4_large_bare`, `ip4_large`).
* A mistake ends the reading of a file, but the records before it are served (C77), without SOA and name servers made up if
  none were needed yet.
* `/read` without tilde swallows the next line (`Mara.Csv2.read_next`) and cannot come first in the default mode; neither can
  a TXT record (`txt_first`).
* An opening brace ends the reading like an end of file, even in a comment (`Mara.Csv2.brace`).
* The last line is an error unless something follows it (`Mara.Csv2.last_line`).
* The root cannot be written as the data of a record (`Mara.Csv2.root_target`); a mail address with dots needs a second label of at
  least two characters (`mbox_short`); in `host.a%` the zone is glued to the label.
* Names of 256 bytes on the wire are accepted.
* The serial number made for a zone stays 1 if the name of its file has 200 bytes or more (`Mara.Serial.serial_stuck`), although
  such a file is read; changes within six seconds may have the same number (`serial_six`), and changes of files that are read with
  `/read` have no effect on it.
* Records after the first 100000 of a file are ignored silently (Csv2_main.c:643), and so is the result of
  `add_rr_to_bighash`.

### Fetched zones

* A name with a byte other than letters, digits, `-`, `_`, `.`, `@` and those above 127 is written as `\xHH`, which the zone
  file parser does not accept in names: the record and all that follow it are not read (C79, `slash_lost`).  Names of
  RFC 2317 have slashes.  A star that is not the first label is such a byte, too.
* An empty TXT record, or any record without data, is written as nothing, with the same effect (`empty_text_lost`); data of
  more than 1511 bytes are refused by the parser.
* The name of the zone is compared as it was given, with names that were made lower case: with a capital letter in the
  argument, all records are comments (`capitals_lost`).  The last letter of a name is not made lower case (`fold_case`
  leaves the last two bytes alone), so `example.coM` is outside `example.com`.
* If the connection ends before the second SOA record, exit code and output are those of a whole zone.
* Labels with dots or `@` are written as they are and read as something else.  The serial number and TTL of
  2^31 and more lead to an overflow when they are read; the other numbers of a SOA record are printed negative.
* The argument must be shorter than 127 bytes; domain names may have 255.

### Zone transfers to others
* A mistake in a zone file ends the transfer as if the zone were complete: the closing SOA record follows (`serve_cut`).
  A secondary then serves the zone without the rest.
* A zone file without records: `copy_csv2_rr(state->buffer)` with a null pointer (`serve_empty`).  A bare address that is
  wrong is a null pointer as well (`Serve.addEntry`).  Only the child process for the connection is lost.
* Times to live are sent as written; the server itself answers with times between one minute and two years.
* The reply to a SOA question takes all NS records behind the SOA record in the buffer for name servers of the zone: a
  delegation that is the first other record is among them.
* After a SOA question the next question is read and not looked at; the zone is sent whatever it was.
* More than 13 addresses to make up name servers for may be too many for the buffer (66 records).
* The server reads at most 100000 records of a file (C74); a transfer reads two million.

### Compression of replies
* A PTR record made by `*.name FQDN4 address` cannot be sent: its data begin with 95, which
  `compress_sub_dlabel` refuses (`Mara.Comp.star_ptr_refused`).  The client gets a reply without question and
  records that says it is truncated.
* `compress_rddata` copies one byte too few of a string in a record (Compress.c:589-604: `len`, not
  `len + 1`).  Only TXT has such a part, and the part after it copies the rest, so nothing is lost; a TXT record
  without data is an error or not depending on what follows it.
* Names are remembered in a list of 150 places, one for each label.  A reply with more labels than that is
  not compressed, although it may be short (two different names of 75 labels).
* Return value 3 of `compress_sub_dlabel` for the root label (Compress.c:306) cannot occur.
* A time to live of 2^32-1 is taken for a read error.
* Decompression copies names of up to 259 bytes (`decomp_get_label`), but asks `dlabel_length` how many bytes of the
  message they take, and that stops counting at 256.  The fields behind a name of 259 bytes are read from the wrong
  place (`Mara.Decomp.overlong_misread`).

### Replies of the authoritative server: records and round robin
* The round robin changes the order of the records, but the record of an alias (and the pointer from an NS
  or MX record to the addresses of its host) still leads to the record that was first when the server started.
  From there only that record and the name servers can be reached (`Mara.Reply.first_cut_off`): once somebody
  has asked for `w.a.`, the reply for an alias of `w.a.` has one address instead of three
  (`Mara.Reply.alias_loses_records`).
* An answer of 1024 bytes or more before compression is a server failure, not a reply that is cut short
  (`Mara.Reply.big_answer_fails`), so that the client has no reason to ask again over TCP.
* `max_total` is not checked; with more than 20 records, a UDP reply of more than 512 bytes can be sent
  (`Mara.Reply.long_reply`): the loop of udpsuccess.c:563-588 gives up after 20 records.
* A reply that is cut short has no question section (`squeeze_to_fit` sets all counts to 0).
* With `max_ar_chain` other than 1 there is no round robin.

### The authoritative server as a whole
* `add_an` visits the chain of the mail exchangers of a name to its end, where the name servers of the zone are, and
  takes these for mail exchangers as well: the first two bytes of their data are left out.  If what is left is the name
  of a host (the name server `a.c.` and the host `c.`), the name server gets the address of that host, or its own,
  depending on which of the two chains is visited last (`Mara.Server.off_by_two`).
* The reply for star records has the bit for recursion desired cleared (`Mara.Server.star_forgets_rd`,
  MaraDNS.c:1605-1625).
* A reply for star records or a denial of more than 512 bytes is sent as a header with the truncation bit, and with the counts
  of the records that are not sent (`Mara.Server.cut_lies`, MaraDNS.c:1640-1650, 1950-1960).
* A question for the NS records of a name that has a star alias gets the name servers of the zone in the answer section, shown as
  CNAME records of the name asked for (`Mara.Server.star_ns_alias`).
* A question for all records of any name, also one that the server would refuse to look up, is answered
  as by a server with authority (`Mara.Server.all_is_claimed`).
* A question for the NS records of an alias gets the name servers of the zone in the answer section, together with the
  alias (`Shelf.answers`).
* The replies with an error that repeat the question have a string of 96 bytes; for longer names nothing is sent
  (`Mara.Reply.udperror`, MaraDNS.c:514-603).
* With `verbose_level` of at least 3 the name of a question is printed in the log as it is (`js_show_stdout`,
  MaraDNS.c:4719), although packets that are refused are escaped.  A label with a line end, a text and a line end makes
  the text, of up to 61 bytes, a line of its own, for example one that looks like the query of another client; control
  characters get to the terminal of whoever reads the log (`Mara.Log.query_forged`).

### coLunacyDNS
* `1:2:3:4:5:6:7::` is refused as an IPv6 address (`Co.seven_groups_refused`).
* `coDNS.solve` with an empty label in the middle of the name (`a..b.`) sends the name up to there, and a byte of fresh memory
  behind it (`Co.asked_name_junk`).
* The replies for `notThere` and to questions for all types end in a byte too many, the zero byte of the C string
  (`Co.special_is_no_message`, coLunacyDNS.c:534-546); the SOA record for `notThere` is counted as an answer, and questions
  for all types over IPv6 get no reply (`Co.any_is_silent_over_ip6`).
* An address that begins with 0.0 is told to the script as a status of its last 16 bits (`Co.low_ip4_is_misread`); with the
  address 0.0.0.28 the status is that of an IPv6 address.
* The number of bytes of a reply is looked at only once: a reply without address records is read on in what was in
  memory before, which may be the address of an earlier reply (`Co.leftover_is_told`), and a long one is read behind the end of
  the memory for it (`Co.long_reply_is_overread`).
* A name with bytes from 128 on can be asked for, but no reply is accepted where `char` is signed
  (`Co.high_names_are_never_heard`).
* With 512 questions waiting, `remoteCo[512]` is read before the index is checked (`Co.full_table_is_overread`,
  coLunacyDNS.c:1587-1594).
* A packet of 3 to 12 bytes is a question: the rest comes from memory that was not written to
  (`Co.short_packet_is_answered`); a name without end is read behind the 500 bytes of the packet
  (`Co.long_name_is_overread`); a packet that does not announce exactly one question is answered with a packet that is
  no reply (`Co.no_question_is_answered`).
* `Co.OneFile.read_499`: after a line of 499 bytes, which the manual allows, `read1` gives an empty line that is not there; a
  carriage return inside a line hides the rest of it (`read_hidden`).
* `Dw.Conf.servers_not_all`, `bad_item_hides`: when one item of a list in `root_servers` or `upstream_servers` is not an address,
  Deadwood starts without a word and asks only the servers after that item.  `last_thirty`: of a longer list only the last
  thirty addresses are used.  `no_servers`: a value without any address is refused for the root only; for every other zone
  Deadwood starts with a list of no servers.
* `Mara.TextTools.other_wrong`, `swallows_next`: `utf8tol1` says that characters Latin-1 does not have become hash marks.  The
  inner loop that should skip their bytes tests `c & (0xc0 == 0x80)`, which is zero, so the bytes are read as characters of
  their own, and a character of four bytes takes the next character along.  Characters of two bytes are cut to eight bits.
* `Mara.TextTools.strip_keeps_partial`, `strip_not_kept`: `strip.control` writes a byte 255 at the end of every text.
* `Mara.Stamp.unix_2038`, `shown_wrong`: with a `time_t` of 64 bits, where MaraDNS says it is fit for 2038, the timestamps of
  the types 0 and 1 (and of all numbers above 7) are cut to 32 bits, so they are negative from 19 January 2038 on.
* `Mara.Duende.null_hides`: what a daemon prints after a null, up to the end of the line, is not logged by duende.
* Read in the code, not modelled: duende logs the raw status in "Child exited with status", which is 256 times the code; the
  logger goes on in a busy loop at the end of its input; and it is sent SIGTERM at the end of the daemon, whether or not it
  has read all of the output.

### Random numbers
* `RgModel`: the seeding shifts a byte into the sign bit of an `int` (`x << 24`).
* `srng` of `zoneserver` reads the seed file into an array on the stack in its first call and makes the key of its cipher
  from the array of a later call (zoneserver.c:132, 188, 217, 221), which is whatever the stack has there.  The numbers of
  the questions to the other server, and the ports they come from, do not depend on the seed file (C82, `seed_lost`).  A
  reply is checked for its number only, not for its sender or its question.
* `convert_query` goes on when the length of the question name cannot be found (-1 + 2 bytes are then looked at as the type),
  and `serve_zone` takes a label with dots in it for several labels (C82; seen while modelling, the model has both).
