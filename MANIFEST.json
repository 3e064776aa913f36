{
 "claims": [
  {
   "property": "C01",
   "status": "proved",
   "theorems": [
    "Dw.string_ops_in_bounds"
   ],
   "note": "All string primitives over an arbitrary history of calls on an arbitrary store; arguments bounded by 2^29 in magnitude so int32 sums do not overflow."
  },
  {
   "property": "C02",
   "status": "proved",
   "theorems": [
    "Dw.push_pop_u16",
    "Dw.pushU16_exact",
    "Dw.popU16_exact",
    "Dw.addchar_pop_u8",
    "Dw.popU8_exact"
   ],
   "note": ""
  },
  {
   "property": "C03",
   "status": "proved",
   "theorems": [
    "Dw.append_exact",
    "Dw.cstrAppend_exact",
    "Dw.addchar_exact",
    "Dw.substrAppend_exact"
   ],
   "note": ""
  },
  {
   "property": "C04",
   "status": "proved",
   "theorems": [
    "Dw.issame_iff"
   ],
   "note": ""
  },
  {
   "property": "C05",
   "status": "proved",
   "theorems": [
    "Dw.qspop_exact",
    "Dw.popAll_join"
   ],
   "note": ""
  },
  {
   "property": "C06",
   "status": "proved",
   "theorems": [
    "Dw.filenameSanitize_exact",
    "Dw.filenameSanitize_safe"
   ],
   "note": ""
  },
  {
   "property": "C07",
   "status": "proved",
   "theorems": [
    "Dw.filenameSaniTwo_safe"
   ],
   "note": ""
  },
  {
   "property": "C08",
   "status": "proved",
   "theorems": [
    "Dw.rotate_exact"
   ],
   "note": ""
  },
  {
   "property": "C09",
   "status": "proved",
   "theorems": [
    "Dw.dnsnameConvert_exact"
   ],
   "note": "The code puts no 255-byte limit on the whole name; the theorem says exactly which texts are accepted."
  },
  {
   "property": "C10",
   "status": "proved",
   "theorems": [
    "Dw.dnslabelChop_exact",
    "Dw.chopN_ancestors"
   ],
   "note": ""
  },
  {
   "property": "C11",
   "status": "proved",
   "theorems": [
    "Dw.getDname_exact",
    "Dw.getDnameType_exact"
   ],
   "note": ""
  },
  {
   "property": "C12",
   "status": "proved",
   "theorems": [
    "Dw.getDnEnd_exact",
    "Dw.getDnEnd_may_pass_end"
   ],
   "note": ""
  },
  {
   "property": "C13",
   "status": "proved",
   "theorems": [
    "Dw.getADnsttl_chain",
    "Dw.getADnsttl_bound",
    "Dw.ttl_top_bit_year"
   ],
   "note": "Lifetimes with the top bit set short-circuit to one year (finding), so the chain theorem assumes lifetimes below 2^31."
  },
  {
   "property": "C14",
   "status": "proved",
   "theorems": [
    "Dw.atoi_exact",
    "Dw.atoi_end",
    "Dw.atoi_overflow_ub"
   ],
   "note": "Values above 2^31-1 overflow int32_t (undefined behaviour, finding)."
  },
  {
   "property": "C15",
   "status": "proved",
   "theorems": [
    "Dw.cache_is_lru_map",
    "Dw.look_gives_last_written",
    "Dw.look_complete",
    "Dw.good_of_startup"
   ],
   "note": "For every hash function; histories with more than 32000 live keys in one bucket and permanent insertions over evictable keys are excluded (see findings)."
  },
  {
   "property": "C16",
   "status": "proved",
   "theorems": [
    "Dw.served_iff_not_expired"
   ],
   "note": ""
  },
  {
   "property": "C17",
   "status": "proved",
   "theorems": [
    "Dw.evictable_below_max",
    "Dw.evicts_least_recently_used"
   ],
   "note": ""
  },
  {
   "property": "C18",
   "status": "proved",
   "theorems": [
    "Dw.permanent_answered",
    "Dw.permanent_forever",
    "Dw.pin_over_evictable_is_ub"
   ],
   "note": "Assumes the entry is not added over an evictable one: that case is undefined behaviour in the code (witness theorem)."
  },
  {
   "property": "C19",
   "status": "proved",
   "theorems": [
    "Dw.save_load",
    "Dw.restart_continues"
   ],
   "note": "Stated for caches within what the file format can carry: nonempty keys and values of at most 2^24 bytes, expiry 2..2^63-1, fewer entries than the configured size."
  },
  {
   "property": "C20",
   "status": "proved",
   "theorems": [
    "Dw.load_truncated",
    "Dw.load_any",
    "Dw.load_junk_is_kept"
   ],
   "note": "load_junk_is_kept records the uninitialised-field defect found while modelling."
  },
  {
   "property": "C21",
   "status": "proved",
   "theorems": [
    "Dw.dict_is_map",
    "Dw.dictOk_small",
    "Dw.Hash.autogrow_state"
   ],
   "note": "Excludes more than 10000 live keys in one bucket (the growth loop drops the rest of the chain)."
  },
  {
   "property": "C22",
   "status": "proved",
   "theorems": [
    "Dw.iteration_visits_all"
   ],
   "note": ""
  },
  {
   "property": "C23",
   "status": "proved",
   "theorems": [
    "Dw.DwStr.hasBadIp_exact",
    "Dw.DwStr.checkIp_exact"
   ],
   "note": "for every cached answer whose A/AAAA records carry full addresses, with any block list"
  },
  {
   "property": "C24",
   "status": "proved",
   "theorems": [
    "Dw.DwStr.lowerCase_exact",
    "Dw.DwStr.lowerCase_any",
    "Dw.DwStr.lowerCase_idem"
   ],
   "note": "exact result on every query, memory safety and idempotence on every string"
  },
  {
   "property": "C25",
   "status": "proved",
   "theorems": [
    "Dw.DwStr.ttlAge_exact",
    "Dw.DwStr.ttlAge_expired"
   ],
   "note": "any records, any lifetime below 2^31"
  },
  {
   "property": "C26",
   "status": "proved",
   "theorems": [
    "Dw.DwStr.rrRotate_exact"
   ],
   "note": "exact result, including when rotation is refused"
  },
  {
   "property": "C27",
   "status": "proved",
   "theorems": [
    "Dw.DwStr.decompDname_total",
    "Dw.DwStr.decompDname_exact",
    "Dw.DwStr.decompDname_sound",
    "Dw.DwStr.decompress_total",
    "Dw.DwStr.decompDname_accepts_loop",
    "Dw.DwStr.decompDname_accepts_long",
    "Dw.DwStr.decompDname_drops_labels"
   ],
   "note": "termination and memory safety for every string; exact result on names of fewer than 200 steps; the last three record defects (loops and overlong names accepted, labels dropped)"
  },
  {
   "property": "C28",
   "status": "partial",
   "theorems": [
    "Dw.DwStr.compressName_readback_partial",
    "Dw.DwStr.compress_self_loop",
    "Dw.DwStr.compressName_safe",
    "Dw.DwStr.compress_total"
   ],
   "note": "single names of fewer than 100 labels without an immediately repeated part, while 64 bytes of output remain; compress_self_loop shows the full claim is false for repeated parts"
  },
  {
   "property": "C29",
   "status": "proved",
   "theorems": [
    "Dw.DwStr.labelSame_exact",
    "Dw.DwStr.dnameSame_exact",
    "Dw.DwStr.dnameSame_plain",
    "Dw.DwStr.dnameSame_equivalence",
    "Dw.DwStr.dnameSame_total",
    "Dw.DwStr.dnameSame_two_pointers"
   ],
   "note": "names of fewer than 300 labels; pointer-to-pointer names are reported as different (dnameSame_two_pointers)"
  },
  {
   "property": "C30",
   "status": "proved",
   "theorems": [
    "Dw.DwStr.inBailiwick_exact",
    "Dw.DwStr.inBailiwick_plain",
    "Dw.DwStr.inBailiwick_total",
    "Dw.DwStr.inBailiwick_can_read_outside"
   ],
   "note": "names of fewer than 300 labels; the last theorem records an out-of-bounds read"
  },
  {
   "property": "C31",
   "status": "proved",
   "theorems": [
    "Dw.Ns.every_server_tried"
   ],
   "note": "For every list of 1 to 127 servers (longer ones are refused), every starting point and all random numbers: using it as often as it has servers chooses each exactly once."
  },
  {
   "property": "C32",
   "status": "proved",
   "theorems": [
    "Dw.Depth.work_bounded",
    "Dw.Depth.depth_fits",
    "Dw.Depth.nesting_cut"
   ],
   "note": "Over all event histories, including loops and re-used places: a request is at most 27 sub-queries from a client, starts at most 83 sub-queries, contacts at most 84 servers."
  },
  {
   "property": "C33",
   "status": "proved",
   "theorems": [
    "Dw.Acl.checkIpAcl_exact"
   ],
   "note": "every list of address/mask entries and every client address"
  },
  {
   "property": "C34",
   "status": "proved",
   "theorems": [
    "Dw.Acl.makeNetmask_exact",
    "Dw.Acl.makeNetmask_bad"
   ],
   "note": ""
  },
  {
   "property": "C35",
   "status": "partial",
   "theorems": [
    "Dw.Acl.acl_text_exact_partial",
    "Dw.Acl.popIpMask_exact",
    "Dw.Acl.popIpMask_bad_address",
    "Dw.Acl.slash_without_bits_admits_all",
    "Dw.Acl.bad_bits_admit_all"
   ],
   "note": "well-formed lists are exact end to end; the last two theorems show that a malformed mask admits every address, so the claim that malformed items grant nothing is false"
  },
  {
   "property": "C36",
   "status": "proved",
   "theorems": [
    "Dw.Hdr.getDnsQid_client",
    "Dw.Hdr.getDnsQid_short",
    "Dw.Hdr.header_of_bytes",
    "Dw.Hdr.setDnsQid_readback"
   ],
   "note": "every header; AA, TC, RA, AD and CD are ignored by the code"
  },
  {
   "property": "C37",
   "status": "proved",
   "theorems": [
    "Dw.Remote.reply_has_effect_only_if_matches",
    "Dw.Remote.verify_iff",
    "Dw.Remote.sendQuery_exact"
   ],
   "note": "the operating system only delivers packets of the connected address; what the cache does with an accepted packet is a parameter"
  },
  {
   "property": "C38",
   "status": "proved",
   "theorems": [
    "Dw.Config.processNumeric_exact",
    "Dw.Config.bindPort_range",
    "Dw.Config.clampTtl_range",
    "Dw.Config.minTtl_beats_maxTtl"
   ],
   "note": "also source ports and cached lifetimes"
  },
  {
   "property": "C39",
   "status": "proved",
   "theorems": [
    "Dw.Synth.makeSynthIp6_exact",
    "Dw.Synth.makeSynthIp4_exact",
    "Dw.Synth.makeSynthRecord_exact"
   ],
   "note": ""
  },
  {
   "property": "C40",
   "status": "partial",
   "theorems": [
    "Dw.Rc.execfile_inside_partial",
    "Dw.Rc.execfile_escapes",
    "Dw.Rc.nesting_bounded",
    "Dw.Rc.missing_file_counts"
   ],
   "note": "For all configurations and file systems, every included file name is relative and has no dot in its first 200 bytes. Names over 200 bytes are cleaned only in their first 200 bytes, so the full statement fails (execfile_escapes)."
  },
  {
   "property": "C41",
   "status": "partial",
   "theorems": [
    "Dw.Rc.line_exact",
    "Dw.Rc.parts_exact_partial",
    "Dw.Rc.set_number",
    "Dw.Rc.set_string",
    "Dw.Rc.add_string_partial",
    "Dw.Rc.dict_init",
    "Dw.Rc.dict_entry",
    "Dw.Rc.dict_entry_fatal",
    "Dw.Rc.add_number_fatal",
    "Dw.Rc.long_string_cut",
    "Dw.Rc.add_string_lost",
    "Dw.Rc.big_number_ub",
    "Dw.Rc.addchar_cap",
    "Dw.Rc.line_shorter"
   ],
   "note": "The automaton, compiled from its text, accepts exactly the grammar and yields the parts of the line. Parts over 383 bytes are silently cut (long_string_cut), so the exact-substring part carries the suffix."
  },
  {
   "property": "C42",
   "status": "partial",
   "theorems": [
    "Dw.SR.getLocal_safe_partial",
    "Dw.SR.getLocal_exact",
    "Dw.SR.refuse_exact",
    "Dw.SR.blocklist_exact",
    "Dw.SR.synthNotThere_exact",
    "Dw.SR.getLocal_any_overreads",
    "Dw.SR.any_reply_overreads",
    "Dw.SR.any_reply_uninitialised",
    "Dw.SR.edns_without_class_leaks",
    "Dw.SR.blocklist_null_pointer"
   ],
   "note": "proved for every question that is not of type ANY or HINFO; for those two types the claim is false (any_reply_overreads, getLocal_any_overreads: a heap over-read on every ordinary ANY query in the default configuration), and two bytes of an earlier packet can be sent (edns_without_class_leaks)"
  },
  {
   "property": "C43",
   "status": "partial",
   "theorems": [
    "Dw.Reply.timeout_single_partial",
    "Dw.Reply.timeout_exact",
    "Dw.Reply.timeout_tcp",
    "Dw.Reply.timeout_others_silent",
    "Dw.Reply.resurrect_single",
    "Dw.Reply.resurrect_second_lost"
   ],
   "note": "proved for the first client and for all clients using TCP; false for every further client using UDP (timeout_others_silent), and with an expired cache element the second client gets nothing at all (resurrect_second_lost)"
  },
  {
   "property": "C44",
   "status": "partial",
   "theorems": [
    "Dw.Tcp.read_framed",
    "Dw.Tcp.short_refused",
    "Dw.Tcp.send_framed",
    "Dw.Tcp.forward_prefix",
    "Dw.Tcp.forward_complete_partial",
    "Dw.Tcp.signed_length_refused",
    "Dw.Tcp.forward_loses_end"
   ],
   "note": "where char is signed a query whose length has a low byte of 128 or more is refused (signed_length_refused); the end of a reply passed on from upstream is lost when the client does not take it at once (forward_loses_end)"
  },
  {
   "property": "C45",
   "status": "proved",
   "theorems": [
    "Dw.BHM.make_exact",
    "Dw.BH.hasString_exact",
    "Dw.BH.hasString_safe",
    "Dw.BH.load_safe",
    "Dw.HS.halfSip13_exact",
    "Dw.BH.empty_file_lookup_is_ub",
    "Dw.BHM.make_empty",
    "Dw.BHM.last_line_without_newline_is_lost"
   ],
   "note": "for lists of one name or more, every line ended by a newline; an empty list makes a file that crashes the resolver and a last line without newline is lost (proved)"
  },
  {
   "property": "C46",
   "status": "partial",
   "theorems": [
    "Dw.Remote.salvage_exact",
    "Dw.Remote.salvage_sound_partial",
    "Dw.Remote.salvage_refuses_pointer",
    "Dw.Remote.salvage_accepts_missing_answer",
    "Dw.Remote.second_client_uncut"
   ],
   "note": "exact for the first client; a truncated packet with no room for an answer is not rejected (salvage_accepts_missing_answer) and a second waiting client gets the uncut packet (second_client_uncut)"
  },
  {
   "property": "C47",
   "status": "proved",
   "theorems": [
    "Dw.Rg.rng_stream_exact",
    "Dw.Rg.initRg_exact",
    "Dw.Rg.absorbed_words_injective",
    "Dw.Rg.rng_test_vector"
   ],
   "note": "32-bit build; checked against a specification written from the paper and the published test vector"
  },
  {
   "property": "C48",
   "status": "partial",
   "theorems": [
    "Dw.Infl.clients_asked_it",
    "Dw.Infl.clients_fit",
    "Dw.Infl.arrive_joins",
    "Dw.Infl.no_leak_partial",
    "Dw.Infl.expire_releases",
    "Dw.Infl.last_place_lost",
    "Dw.Infl.lost_forever"
   ],
   "note": "Over all event histories, clients only wait on a request for their own question; a listed question gets no second request; expired requests are released after their last retry. Slots are never lost provided a fresh question needing a name-server address finds a second free slot; without that the code loses the slot forever (witness last_place_lost, lost_forever)."
  },
  {
   "property": "C49",
   "status": "partial",
   "theorems": [
    "Dw.ops_keep_usable_partial",
    "Dw.qrappend_can_make_unusable"
   ],
   "note": "Refuted: dw_qrappend (also dw_put_u8, dw_substr) can fill a string to length == capacity. The exact theorems for the other operations (C02, C03) include preservation of usability."
  },
  {
   "property": "C50",
   "status": "proved",
   "theorems": [
    "Dw.Fila.ring_is_list",
    "Dw.Fila.repr_new",
    "Dw.Fila.repr_zap",
    "Dw.Fila.repr_fetch",
    "Dw.Fila.repr_victim"
   ],
   "note": ""
  },
  {
   "property": "C51",
   "status": "proved",
   "theorems": [
    "Dw.BH.blocked_by_list",
    "Dw.BH.blocked_exact"
   ],
   "note": ""
  },
  {
   "property": "C52",
   "status": "proved",
   "theorems": [
    "Dw.Reply.makePacket_exact",
    "Dw.Reply.makePacket_truncated",
    "Dw.Reply.packet_message",
    "Dw.Reply.answer_message"
   ],
   "note": "packet_message and answer_message: the bytes are those of a whole message (Spec.Msg) with the records of the answer."
  },
  {
   "property": "C53",
   "status": "partial",
   "theorems": [
    "Dw.Tcp.silent_expires_partial",
    "Dw.Tcp.eof_keeps_place"
   ],
   "note": "true for a client that stays connected; false for one that has closed its side: it keeps its place for ever (eof_keeps_place)"
  },
  {
   "property": "C54",
   "status": "partial",
   "theorems": [
    "Dw.Depth.result_to_right_request_partial",
    "Dw.Depth.chain_result_to_stranger"
   ],
   "note": "True for the direct hand-over of a sub-query; further up a chain of CNAMEs the check is missing and another request may get the answer (chain_result_to_stranger)."
  },
  {
   "property": "C55",
   "status": "partial",
   "theorems": [
    "Mara.Js.append_exact",
    "Mara.Js.insert_exact",
    "Mara.Js.insert_negative_refused",
    "Mara.Js.substr_exact",
    "Mara.Js.substr_negative_refused",
    "Mara.Js.copy_exact",
    "Mara.Js.addbyte_exact",
    "Mara.Js.adduint16_exact",
    "Mara.Js.adduint16_range",
    "Mara.Js.adduint32_exact",
    "Mara.Js.changebyte_exact",
    "Mara.Js.str2js_exact",
    "Mara.Js.substrAppend_exact",
    "Mara.Js.tolower_exact",
    "Mara.Js.issame_exact",
    "Mara.Js.val_exact",
    "Mara.Js.readuint16_exact_partial",
    "Mara.Js.readuint16_short_stale",
    "Mara.Js.readbyte_empty_stale",
    "Mara.Js.uint16_round_trip"
   ],
   "note": "All operations refine the list specification for all strings. Reading numbers from a string shorter than the number is not an error but reads stale or foreign bytes (readuint16_short_stale, readbyte_empty_stale), and js_insert refuses the negative places it documents."
  },
  {
   "property": "C56",
   "status": "proved",
   "theorems": [
    "Mara.Js.fgrep_exact",
    "Mara.Js.fgrep_offset_refused",
    "Mara.Js.fgrep_empty_ignores_offset",
    "Mara.Js.match_exact",
    "Mara.Js.match_negative",
    "Mara.Js.notmatch_empty_list"
   ],
   "note": "For all strings, non-empty expressions and offsets. Empty expressions behave differently (fgrep_empty_ignores_offset, notmatch_empty_list)."
  },
  {
   "property": "C57",
   "status": "proved",
   "theorems": [
    "Dw.DwStr.decompress_exact"
   ],
   "note": "For every answer and every compressed form of it (names of up to 199 steps), if the expanded answer has less than 2048 bytes."
  },
  {
   "property": "C58",
   "status": "partial",
   "theorems": [
    "Dw.DwStr.compress_exact_partial",
    "Dw.DwStr.compress_round_trip_partial",
    "Dw.DwStr.compress_fits",
    "Dw.Reply.packet_message",
    "Dw.DwStr.data_as_is",
    "Dw.DwStr.compress_drops_label"
   ],
   "note": "For every answer whose compressed form has at most 457 bytes (which is so if its records take 450: compress_fits) and whose names have no immediately repeated part. Beyond that the code is wrong: a label that does not fit is silently left out, so a record may be sent with another owner (compress_drops_label); repeated parts: compress_self_loop."
  },
  {
   "property": "C59",
   "status": "proved",
   "theorems": [
    "Mara.Acl.entry_exact",
    "Mara.Acl.list_exact",
    "Mara.Acl.admitted_iff",
    "Mara.Acl.within_bits",
    "Mara.Acl.bits_over_32_refused",
    "Mara.Acl.too_many_refused",
    "Mara.Acl.slash_without_number_admits_all",
    "Mara.Acl.short_address_accepted",
    "Mara.Acl.broadcast_lost"
   ],
   "note": "For all well-formed lists. Malformed entries are not all refused (slash_without_number_admits_all, short_address_accepted) and an entry 255.255.255.255 is lost (broadcast_lost)."
  },
  {
   "property": "C60",
   "status": "partial",
   "theorems": [
    "Mara.Acl.rights_exact_partial",
    "Mara.Acl.two_entries_turned_away",
    "Mara.Acl.two_entries_give_recursion"
   ],
   "note": "Zone transfer rights exact for all lists; forwarding and recursion only for clients that match at most one entry per list: rights are added per matching entry, so two matches turn a client away and three give recursion."
  },
  {
   "property": "C61",
   "status": "partial",
   "theorems": [
    "Mara.Lookup.answer_exact",
    "Mara.Lookup.letter_case",
    "Mara.Lookup.class_not_checked",
    "Mara.Lookup.long_names_fail",
    "Mara.Lookup.root_caa_fails",
    "Mara.Lookup.star_cname_above_lost",
    "Mara.Lookup.glue_answered"
   ],
   "note": "answer_exact is the full decision with the default settings for all zones and questions with a name of 1 to 253 bytes (wire form); questions for all records (ANY) and the assembly of the reply packet are not modelled. Longer names fail (long_names_fail), the root can fail (root_caa_fails). The specification has a star CNAME only directly above a name, since the code loses others (star_cname_above_lost); classes other than IN are answered (class_not_checked)."
  },
  {
   "property": "C62",
   "status": "proved",
   "theorems": [
    "Mara.Lookup.nxdomain_iff",
    "Mara.Lookup.refused_iff",
    "Mara.Lookup.wildcard_iff",
    "Mara.Lookup.capitals_denied",
    "Mara.Lookup.strict_denies"
   ],
   "note": "Exact for the default settings. With bind_star_handling 0 or 2 names that exist can be denied (capitals_denied, strict_denies)."
  },
  {
   "property": "C63",
   "status": "proved",
   "theorems": [
    "Mara.Lookup.reply_fair",
    "Mara.Lookup.record_sent",
    "Mara.Lookup.dotted_quad_answered",
    "Mara.Lookup.strict_star_cname_lost",
    "Mara.Lookup.default_zone_capitals",
    "Mara.Lookup.dotted_quad_id"
   ],
   "note": "For all settings with the default zone off; ANY questions excluded."
  },
  {
   "property": "C64",
   "status": "proved",
   "theorems": [
    "Mara.Lookup.procQuery_safe",
    "Mara.Lookup.replies_ignored",
    "Mara.Lookup.underscore_ends_name"
   ],
   "note": "For every packet in a live string; the assembly of replies is not modelled. Names may be ended by an underscore (underscore_ends_name)."
  },
  {
   "property": "C65",
   "status": "partial",
   "theorems": [
    "Dw.Rc.unset_number_documented_partial",
    "Dw.Rc.unset_uid_differs"
   ],
   "note": "All documented numeric parameters but two: the manual gives 707 for maradns_uid and maradns_gid, the code has 99 (unset_uid_differs)."
  },
  {
   "property": "C66",
   "status": "proved",
   "theorems": [
    "Mara.Lookup.level_exact",
    "Mara.Lookup.any_exact"
   ],
   "note": "For the default star handling, no default zone and no recursive delegation. The gathering of all records of a name (udpany) is a parameter of the model."
  },
  {
   "property": "C67",
   "status": "proved",
   "theorems": [
    "Mara.Hash.array_exact",
    "Mara.Hash.resize_keeps",
    "Mara.Hash.visit_all",
    "Mara.Hash.count_wrong",
    "Mara.Hash.hash_overflow"
   ],
   "note": "Memory is taken to be available. The count kept for growing is too large after the first growth (count_wrong), which only makes the table grow earlier; beyond 24 bits the hash can overflow an int (hash_overflow), hence the bound on the entries."
  },
  {
   "property": "C68",
   "status": "proved",
   "theorems": [
    "Mara.Big.load_exact",
    "Mara.Big.served_exact",
    "Mara.Big.record_served",
    "Mara.Big.no_takeover",
    "Mara.Big.late_ns_dangling"
   ],
   "note": "Names without NUL in their labels, in small letters and of at most 253 bytes. The premise that name servers come first is what csv2_add_rr takes care of; late_ns_dangling shows what happens without it."
  },
  {
   "property": "C69",
   "status": "proved",
   "theorems": [
    "Mara.Zf.read_exact",
    "Mara.Zf.zones_served",
    "Mara.Zf.entry_served",
    "Mara.Zf.bound_to_any_refused",
    "Mara.Zf.capital_ns_made_up"
   ],
   "note": "From the records that the parser recognises (the parser itself is not in this model) to the replies. The name of a name server record at the top of a file has to be written as the name of the zone is; capital_ns_made_up shows what happens otherwise."
  },
  {
   "property": "C70",
   "status": "proved",
   "theorems": [
    "Mara.Comp.compress_carries",
    "Mara.Comp.compress_sound",
    "Mara.Comp.compress_read",
    "Mara.Comp.is_unique",
    "Mara.Comp.star_ptr_refused"
   ],
   "note": "Well formed: legal names, addresses of four bytes, texts whose first string fits, times to live other than 2^32-1. star_ptr_refused: a PTR record made from a star name is not well formed, and the reply with it cannot be compressed. The table of record descriptions is transcribed, not parsed."
  },
  {
   "property": "C71",
   "status": "proved",
   "theorems": [
    "Mara.Reply.reply_shows",
    "Mara.Reply.reply_size",
    "Mara.Reply.truncated_needed",
    "Mara.Reply.parts_exist",
    "Mara.Reply.long_reply",
    "Mara.Reply.big_answer_fails"
   ],
   "note": "Records in memory are assumed to be chained as the loader chains them (Good): same name and type, then name servers; chains end. big_answer_fails: an answer of 1024 bytes or more before compression is answered by SERVFAIL (reply_shows says exactly when). long_reply: with max_total set above 20 a reply can have more than 512 bytes, hence the bound of 20, which is the default. Replies to ANY questions (udpany) are not in this model."
  },
  {
   "property": "C72",
   "status": "partial",
   "theorems": [
    "Mara.Reply.reply_turns",
    "Mara.Reply.round_robin_partial",
    "Mara.Reply.everyone_first",
    "Mara.Reply.alias_loses_records",
    "Mara.Reply.first_cut_off"
   ],
   "note": "Proved for questions for the records themselves. False for aliases (alias_loses_records): the alias keeps pointing to the record that was first at the start, so after one question for the target the reply for the alias lacks all but one of its records."
  },
  {
   "property": "C73",
   "status": "partial",
   "theorems": [
    "Mara.Csv2.utf8_kept_partial",
    "Mara.Csv2.utf8_lost",
    "Mara.Csv2.utf8_three_bytes",
    "Mara.Csv2.utf8_four_bytes"
   ],
   "note": "Proved for characters outside U+0800-U+0FFF and U+10000-U+3FFFF; for these it is false (utf8_lost: always; utf8_three_bytes, utf8_four_bytes: as seen from outside), the record is then malformed because its length counts the lost byte."
  },
  {
   "property": "C74",
   "status": "proved",
   "theorems": [
    "Mara.Csv2.text_exact",
    "Mara.Csv2.text_served"
   ],
   "note": "The grammar is Spec.ZoneText.File (Verif/Spec/ZoneText.lean) with Ok for its limits: no /read, no MG, MR, MINFO, RP, PX, no root owner, ASCII only (C73 for the rest); at most eight /opush (C75). text_served uses one time stamp for all files."
  },
  {
   "property": "C75",
   "status": "partial",
   "theorems": [
    "Mara.Csv2.origin_restored_partial",
    "Mara.Csv2.pushed_eight",
    "Mara.Csv2.pushed_nine"
   ],
   "note": "Proved for files with at most eight /opush. False beyond (pushed_nine): /opop does not take the height of the stack down, so the ninth /opush of a file fails however many /opop came before."
  },
  {
   "property": "C76",
   "status": "partial",
   "theorems": [
    "Mara.Csv2.address_read",
    "Mara.Csv2.address_safe_partial",
    "Mara.Csv2.ip6_before",
    "Mara.Csv2.ip6_nine",
    "Mara.Csv2.ip6_two"
   ],
   "note": "Proved for texts with at most nine colons. False beyond (ip6_before): memory before the buffer is written. Improper addresses can be accepted (ip6_nine, ip6_two), which the statement allows."
  },
  {
   "property": "C77",
   "status": "proved",
   "theorems": [
    "Mara.Csv2.prefix_kept",
    "Mara.Csv2.mistake_ends"
   ],
   "note": ""
  },
  {
   "property": "C78",
   "status": "partial",
   "theorems": [
    "Mara.Decomp.decompress_exact",
    "Mara.Decomp.decompress_sound_partial",
    "Mara.Decomp.decompress_safe",
    "Mara.Decomp.compress_decompress",
    "Mara.Decomp.overlong_misread"
   ],
   "note": "Soundness is proved for messages without names of more than 255 bytes. With such a name it is false (overlong_misread): names of up to 259 bytes are copied, but their length in the message is counted up to 257 only, so what follows is read from the wrong place. \"Well-formed\" in decompress_exact: names of at most 255 bytes, read in at most 255 steps, pointers backwards and not into the header."
  },
  {
   "property": "C79",
   "status": "partial",
   "theorems": [
    "Mara.Fetch.fetch_read_partial",
    "Mara.Fetch.slash_lost",
    "Mara.Fetch.empty_text_lost",
    "Mara.Fetch.capitals_lost"
   ],
   "note": "Proved for zones whose records are Spec.Transfer.Plain (names of letters in lower case, digits, - and _, with or without a star; numbers below 2^31; data of 1 to 1511 bytes and no empty text) in well-formed messages, with at most 4900 records that do not belong to the zone. False for names with a slash and for empty texts (slash_lost, empty_text_lost): this record and all that follow are not read. A zone given in capitals is lost as a whole (capitals_lost). A transfer that is cut off is written like a whole one."
  },
  {
   "property": "C80",
   "status": "proved",
   "theorems": [
    "Mara.Fetch.fetch_harmless"
   ],
   "note": "For zones whose labels are letters, digits, - and _. The line is as Spec.Transfer.Harmless says; what the parser makes of the rest of a record line is C77 and C79."
  },
  {
   "property": "C81",
   "status": "proved",
   "theorems": [
    "Mara.Serve.serve_exact",
    "Mara.Serve.serve_soa",
    "Mara.Serve.sent_kept",
    "Mara.Serve.serve_cut",
    "Mara.Serve.serve_empty"
   ],
   "note": "For files in the grammar of C74 whose records fit in messages of 2047 bytes, with at most 13 addresses to make up name servers for. serve_soa: the name servers are the first records of the file (with the SOA record, at most 28), and the first other record is not a delegation, which would be sent as if it were a name server of the zone. serve_cut and serve_empty are findings: a mistake in the file cuts the zone without a sign; a file without records is a null pointer."
  },
  {
   "property": "C82",
   "status": "partial",
   "theorems": [
    "Mara.Door.transfer_admitted",
    "Mara.Door.forward_admitted",
    "Mara.Door.stranger_nothing",
    "Mara.Door.transfer_served",
    "Mara.Door.forward_exact_partial",
    "Mara.Door.wrong_id",
    "Mara.Door.answers_ignored",
    "Mara.Door.seed_lost"
   ],
   "note": "All but the last sentence, which is false: seed_lost says that the numbers do not depend on the file. forward_exact_partial is for clients in exactly one entry of tcp_convert_acl and at most one of recursive_acl: the bits of several entries are added, not combined (C60). Questions are well-formed messages of at most 380 bytes, replies of at most 4100. Zones in the old format (csv1) are not in the model."
  },
  {
   "property": "C83",
   "status": "partial",
   "theorems": [
    "Mara.Mirror.mirror_served_partial"
   ],
   "note": "For zones whose records have the data that their types demand and are plain as for C79 (that names with a slash, empty texts and capitals in owner names of the SOA record are lost is proved there), and with name servers in the file or an address to make one up from. The servers have this zone only."
  },
  {
   "property": "C84",
   "status": "partial",
   "theorems": [
    "Dw.Dissect.kept_inside_partial",
    "Dw.Dissect.any_inside_partial",
    "Dw.Dissect.kept_outside",
    "Dw.Dissect.nobody_kept"
   ],
   "note": "Proved for replies with at most fifteen authority records. False beyond (kept_outside): only the first fifteen are checked against the zone, but the name of the referral is the longest of all, so a reply with sixteen can replace the servers of any name. A referral that may not be made becomes an empty list of servers of the root (nobody_kept). The reply is Reply inp p: well-formed records with names of at most 255 bytes, as reply_wire says decompression makes them; any_inside_partial is the same for any bytes."
  },
  {
   "property": "C85",
   "status": "proved",
   "theorems": [
    "Dw.Dissect.referral_exact",
    "Dw.Dissect.referral_asked"
   ],
   "note": "For referrals within the limits of the statement, with addresses of 4 and 16 bytes, to servers of a zone without control characters in its name. Names whose labels have together with two for each label 260 or more are never equal to others (Spec.Alike). The zone for which the list is kept is the longest name of the NS and SOA records that may be delegated."
  },
  {
   "property": "C86",
   "status": "proved",
   "theorems": [
    "Dw.Dissect.answer_exact",
    "Dw.Dissect.answer_unrelated",
    "Dw.Dissect.alias_exact",
    "Dw.Dissect.denial_exact",
    "Dw.Dissect.answer_sound",
    "Dw.Dissect.any_empty",
    "Dw.Dissect.answer_late",
    "Dw.Dissect.alias_stuck"
   ],
   "note": "answer_exact, alias_exact: answers that begin with their aliases, at most 32 of them (7 without aliases). answer_late: an answer behind seven other records is not found. alias_stuck: aliases with more than 258 bytes together are kept but not followed. any_empty: for questions for all types unrelated records are kept as an answer without records."
  },
  {
   "property": "C87",
   "status": "proved",
   "theorems": [
    "Dw.Dissect.reply_safe",
    "Dw.Dissect.kept_times",
    "Dw.Dissect.reply_wire"
   ],
   "note": "For well-formed replies with names of at most 255 bytes and 30 <= max_ttl, min_ttl <= max_ttl."
  },
  {
   "property": "C88",
   "status": "partial",
   "theorems": [
    "Mara.Server.links_right",
    "Mara.Server.off_by_two"
   ],
   "note": "Proved for records that make no trouble (Spec.Given.Tidy): hosts are not named like addresses, and what is left of the name of a name server without its first two bytes is not the name of a host. False without the last condition (off_by_two): the name servers behind the mail exchangers of a zone are taken for mail exchangers, and which address they end up with depends on the order."
  },
  {
   "property": "C89",
   "status": "proved",
   "theorems": [
    "Mara.Server.text_session"
   ],
   "note": "For zone files within the grammar of C74, records that make no trouble (Spec.Given.Tidy), the usual settings, and questions as in C61 (Asks, Plain) or for all types with the setting rfc8482 (C104): not those about the server itself. Says spells out each reply; records that are too many for a reply are left out or the reply is cut short as in C71."
  },
  {
   "property": "C90",
   "status": "partial",
   "theorems": [
    "Mara.Server.server_session",
    "Mara.Server.star_forgets_rd",
    "Mara.Server.cut_lies",
    "Mara.Server.star_ns_alias"
   ],
   "note": "Proved with the replies as they are (Says). They are not always what they should be: the wish for recursion is not repeated for star records (star_forgets_rd), a reply for star records or a denial that is too long is a header that announces records which are not there (cut_lies), and name servers sent for a question for name servers of a name with a star alias are shown as aliases (star_ns_alias). Questions for all types are those of C104; those about the server itself are not modelled."
  },
  {
   "property": "C91",
   "status": "partial",
   "theorems": [
    "Mara.Server.session_turns",
    "Mara.Server.turns_run",
    "Mara.Server.alias_loses"
   ],
   "note": "The order of the records of a name and type is as stated, over all sequences; if a reply is a server failure because it is too long, the order may move on or not. What is said about an alias changes with questions for the name it leads to (alias_loses): its pointer stays on the record that was first at the start."
  },
  {
   "property": "C92",
   "status": "proved",
   "theorems": [
    "Dw.FromCache.kept_answer_is_given",
    "Dw.FromCache.started_exists"
   ],
   "note": "For answers with names that are compressed rightly (C58: no immediately repeated part), whose records take less than 515 bytes with header and question; questions as C42 delivers them; no permanent entry for the same question. A question for an IPv6 address needs its name not to be on the block list, one for mail exchangers needs them not to be rejected."
  },
  {
   "property": "C93",
   "status": "proved",
   "theorems": [
    "Dw.FromCache.expired_is_not_given"
   ],
   "note": "For everything Deadwood stores (Storable: answers and its own strings)."
  },
  {
   "property": "C94",
   "status": "proved",
   "theorems": [
    "Dw.FromCache.never_kept_never_given"
   ],
   "note": ""
  },
  {
   "property": "C95",
   "status": "proved",
   "theorems": [
    "Dw.FromCache.session_never_fails",
    "Dw.FromCache.ask_leaves_others"
   ],
   "note": "For caches of up to 32000 entries."
  },
  {
   "property": "C96",
   "status": "partial",
   "theorems": [
    "Dw.FromCache.blocked_name_is_refused",
    "Dw.FromCache.tcp_is_never_answered"
   ],
   "note": "For questions over UDP with names without control characters. A client that asks over TCP is not stopped: nothing is ever answered from the cache over TCP, and so not from the block list either (tcp_is_never_answered); the question goes to the upstream servers."
  },
  {
   "property": "C97",
   "status": "partial",
   "theorems": [
    "Co.colon_text_is_read",
    "Co.digits_are_read",
    "Co.written_address_is_read",
    "Co.seven_groups_refused"
   ],
   "note": "Proved for all ways to write an address except seven groups with a double colon at the end, which is refused (seven_groups_refused)."
  },
  {
   "property": "C98",
   "status": "partial",
   "theorems": [
    "Co.human_name",
    "Co.shown_inj",
    "Co.asked_name",
    "Co.asking_is_safe",
    "Co.asked_name_junk"
   ],
   "note": "What a script is given is shown of the name (human_name, question_ok), and shown has one meaning (shown_inj). A name with an empty label in the middle is sent cut short, with a byte of fresh memory behind it (asked_name_junk)."
  },
  {
   "property": "C99",
   "status": "partial",
   "theorems": [
    "Co.reply_is_message",
    "Co.endThread_body",
    "Co.special_is_no_message"
   ],
   "note": "Proved for addresses and failures (endThread_body: what is sent is Spec.Script.Body.reply, with one byte more in two cases). False for replies that there is nothing of the type and for the reply to questions for all types: a stray zero byte follows (special_is_no_message); the former also has its SOA record in the answer section."
  },
  {
   "property": "C100",
   "status": "proved",
   "theorems": [
    "Co.replies_say_what_the_script_says"
   ],
   "note": "For clients whose packets are questions (Spec.Script.Quest.Ok); other clients may send anything. The global state of the script may be changed between its steps. A name asked for may be cut as in C98."
  },
  {
   "property": "C101",
   "status": "proved",
   "theorems": [
    "Co.no_more_replies_than_questions",
    "Co.replies_only_to_who_asked"
   ],
   "note": "For runs without misuse of memory (C103)."
  },
  {
   "property": "C102",
   "status": "partial",
   "theorems": [
    "Co.only_replies_are_heard",
    "Co.first_ip4_is_told",
    "Co.first_ip6_is_told",
    "Co.low_ip4_is_misread",
    "Co.leftover_is_told",
    "Co.high_names_are_never_heard"
   ],
   "note": "Proved for replies of up to 514 bytes in which the records up to the first address are named with up to 12 bytes (usually a pointer) and begin before place 450 (Helpful). False for addresses that begin with 0.0 (low_ip4_is_misread), for names with bytes from 128 on (high_names_are_never_heard), and for replies without addresses: what was in memory before is taken for one (leftover_is_told)."
  },
  {
   "property": "C103",
   "status": "partial",
   "theorems": [
    "Co.questions_are_safe",
    "Co.few_questions_are_safe",
    "Co.helpful_is_safe",
    "Co.full_table_is_overread",
    "Co.long_reply_is_overread",
    "Co.leftover_is_told",
    "Co.short_packet_is_answered",
    "Co.long_name_is_overread"
   ],
   "note": "Proved for clients that send questions, replies with an address, and fewer than 512 questions that wait. False otherwise: the table of waiting questions is read behind its end when it is full (full_table_is_overread), replies and names of questions are read behind the end of their memory (long_reply_is_overread, long_name_is_overread), and short packets are answered according to what was in memory before (short_packet_is_answered)."
  },
  {
   "property": "C104",
   "status": "proved",
   "theorems": [
    "Mara.Server.all_answered",
    "Mara.Server.server_session",
    "Mara.Server.all_is_claimed"
   ],
   "note": "With rfc8482 = 1 (the default) and dos_protection_level up to 13. The reply claims authority also for names the server has nothing to do with and would otherwise refuse (all_is_claimed). The replies with rfc8482 = 0 are not modelled."
  },
  {
   "property": "C105",
   "status": "partial",
   "theorems": [
    "Dw.Incoming.packet_safe",
    "Dw.Incoming.packet_blocked",
    "Dw.Incoming.packet_inside_partial",
    "Dw.Incoming.packet_answer",
    "Dw.Incoming.packet_denial",
    "Dw.Incoming.packet_failed",
    "Dw.Incoming.packet_referral",
    "Dw.Incoming.packet_outlives",
    "Dw.Incoming.incoming_eq"
   ],
   "note": "For packets of up to 65535 bytes that are a message (Msg.From: names are read in fewer than 200 steps, pointers lead to labels of the question or behind it) with at least one record and at most 2047 bytes with names written out. That nothing else is kept is proved for replies with at most fifteen authority records (false otherwise, C84). A record behind the first one may allow less time than it is kept (packet_outlives). Missing: truncated packets. For packets that are not messages see C112."
  },
  {
   "property": "C106",
   "status": "proved",
   "theorems": [
    "Interop.resolver_keeps",
    "Interop.answer_kept",
    "Interop.alias_kept",
    "Interop.denial_kept",
    "Interop.star_kept",
    "Interop.carried_answer",
    "Interop.carried_denial",
    "Interop.relay_run",
    "Mara.Comp.compress_clear"
   ],
   "note": "For records with names of fewer than 100 labels, times to live below 2^31 and whole IPv6 addresses; for questions with printable names Deadwood can compare (lengths of labels and two for each below 260), of types other than NS, CNAME and ANY and those Deadwood reserves; with at most seven records of the name (or a limit max_chain of at most seven), none of them blocked; an alias must have one target, inside the zone of the servers asked, with 1 to 31 records of the type. Delegations are C110."
  },
  {
   "property": "C107",
   "status": "partial",
   "theorems": [
    "Dw.Alias.alias_answer",
    "Dw.Alias.alias_run",
    "Dw.Alias.alias_told",
    "Dw.Alias.alias_cases_partial",
    "Dw.Alias.alias_one_safe",
    "Dw.Alias.alias_used_after",
    "Dw.Alias.alias_used_after_witness",
    "Dw.Alias.alias_denied",
    "Dw.Alias.alias_alone",
    "Dw.Trust.alias_joined",
    "Dw.Trust.gEvs_run"
   ],
   "note": "Proved for up to twelve aliases whose names have no control characters and take up to 253 bytes together, up to fifteen records in all, and up to 1020 bytes. Beyond that the answer is cut or not made (alias_cases_partial), and with two aliases or more and 1021 to 1023 bytes memory is used after it has been given back (alias_used_after); with one alias this cannot happen (alias_one_safe). If there is no such name or record at the end of the aliases, nothing is made and the client is told nothing (alias_denied); if what is kept for that name denies it and has answers all the same, the first alias is told alone (alias_alone). The aliases are told with the time to live of the records at the end. That the answer goes to all clients who wait, and on to questions that wait for this one, is not modelled."
  },
  {
   "property": "C108",
   "status": "partial",
   "theorems": [
    "Dw.Trust.clients_answer",
    "Dw.Trust.referral_refused",
    "Dw.Trust.referral_spent",
    "Dw.Trust.refused_then_believed",
    "Dw.Trust.trust_broken"
   ],
   "note": "Proved for replies that are kept and leave the list of servers as it is (answers, denials): any number of clients is the same as one. False for referrals, because the packet is judged once for each client and the first time changes whom the second time takes it to be from: a good referral leaves nobody to ask (referral_spent), and one that the servers asked may not make is believed the second time, as if a root server had sent it (refused_then_believed; trust_broken has the events from the question to the cache). Aliases and truncated packets with several clients are in the model but not in clients_answer."
  },
  {
   "property": "C109",
   "status": "partial",
   "theorems": [
    "Dw.Trust.trust_chain_partial",
    "Dw.Trust.asked_chain_partial",
    "Dw.Trust.trust_broken",
    "Dw.Trust.run_inv"
   ],
   "note": "Proved for all sequences of events in which the packets taken are messages (as in C105, with at most fifteen authority records) and no reply is judged while the list of servers is empty; the latter happens with two clients waiting (C108) and then servers of any zone get hold of the zones above (trust_broken). Which answer is put behind which aliases is not part of it (C107): the aliases are looked up when the answer comes, and may be newer than those the question was made from. Missing: packets that are not messages, DNS over TCP, the cache file, and the sockets themselves (that a packet comes from the address that was asked)."
  },
  {
   "property": "C110",
   "status": "proved",
   "theorems": [
    "Interop.resolver_referred",
    "Interop.referral_kept",
    "Interop.carried_referral",
    "Interop.refer_run"
   ],
   "note": "For zones as in C106, with IPv6 addresses of sixteen bytes, questions as in C106 of types other than NS and ANY, and replies that are not cut short and have room for a name server; with at most fifteen name servers of the delegated zone (or max_chain of at most fifteen); the zone is below that of the servers asked; the name asked for is not that of one of the name servers (their addresses would then be taken as answers)."
  },
  {
   "property": "C111",
   "status": "proved",
   "theorems": [
    "Dw.Trust.nearest_first",
    "Dw.Trust.send_nearest",
    "Dw.Trust.configured_stays",
    "Dw.Trust.nearest_always",
    "Dw.Trust.nearest_run",
    "Dw.Trust.upper_forgotten"
   ],
   "note": "The cache is the one of C109. Servers that a referral names in capital letters are not found again (upper_forgotten): what the cache knows of a zone is what it has under the name in lower case."
  },
  {
   "property": "C112",
   "status": "partial",
   "theorems": [
    "Dw.Incoming.any_packet",
    "Dw.Incoming.any_packets",
    "Dw.Dissect.any_inside_partial"
   ],
   "note": "Proved for all packets of up to 65535 bytes of any content, not truncated, in a buffer with three bytes behind the packet, and for all sequences of them. That only zones are remembered that may be delegated is proved for any bytes after names have been written out, if the count of authority records that is then found at the end is at most fifteen (false otherwise, C84; that count is the one of the packet unless what is written out takes more than 2040 bytes). What is done later with a list of servers or with aliases that such a packet has left, other than judging replies by it, is not part of it."
  },
  {
   "property": "C113",
   "status": "partial",
   "theorems": [
    "Dw.Trust.any_chain_partial",
    "Dw.Trust.any_asked_partial",
    "Dw.Trust.strangers_partial"
   ],
   "note": "Over all sequences of events of the model of C109, with packets of any bytes. Missing, as in C109: packets judged while nobody was left to ask, for which it is false (Dw.Trust.trust_broken). Missing besides: packets in which the code, having written them out, finds more than fifteen authority records (false, C84), and packets with a question for a name of 256 bytes, which is one more than a name may have. Messages of C109 are such packets (Dw.Trust.IsMsg.read)."
  },
  {
   "property": "C114",
   "status": "proved",
   "theorems": [
    "Mara.Server.server_any",
    "Mara.Server.life_turns",
    "Mara.Server.odd_run"
   ],
   "note": "For zones as in C90 (records that can be stored and sent), the settings that are the default (rfc8482 set, no rejected types, bind_star_handling 1, no default zone, dos_protection_level up to 7, but any no_fingerprint) and clients that are not on the list of administrators, for whom questions about the server itself are answered (not modelled). Strings are as the receiving loop makes them. Replies to packets that are no well-formed question are left open but for that they are made without undefined behaviour."
  },
  {
   "property": "C115",
   "status": "partial",
   "theorems": [
    "Dw.Trust.fromAnswer_exact",
    "Dw.Trust.connect_told",
    "Dw.Trust.getAddr_told",
    "Dw.Trust.findAddr_told",
    "Dw.Trust.entryName_near",
    "Dw.Trust.entryName_far",
    "Dw.Trust.finish_glue",
    "Dw.Trust.pick_answer",
    "Dw.Trust.gGlue_run"
   ],
   "note": "Lists and answers are as they are kept (C85, C86); A records have four bytes of data or more. That the address of a server known by its name is taken or asked for is proved where the place of its entry in the list and the length of its name add up to at most 254, and the name has no control characters; it is false for names further on in the list, which are never used (entryName_far). If an answer has more than sixteen records, only the last sixteen are looked at."
  },
  {
   "property": "C116",
   "status": "proved",
   "theorems": [
    "Mara.Rc.readMararc_exact",
    "Mara.Rc.parseline_safe",
    "Mara.Rc.parseline_within",
    "Mara.Rc.error_first",
    "Mara.Rc.mt_js",
    "Mara.Rc.misspelt_dictionary_ignored",
    "Mara.Rc.long_addition_dropped",
    "Mara.Rc.comment_matters"
   ],
   "note": "Lines are shorter than 256 bytes and end in a line feed, a variable is not called ERROR, and quoted values and comments hold no quote, plus sign, left bracket or backslash, which MaraDNS does not take even in a comment (comment_matters). Findings that the specification says as they are: entries of unknown dictionaries and additions that make a value too long are dropped without a word (misspelt_dictionary_ignored, long_addition_dropped). Dictionaries are maps (C67); the searches are those of the string library by mt_js for places in the line, and for the one search from the end of the line by definition."
  },
  {
   "property": "C117",
   "status": "partial",
   "theorems": [
    "Mara.Getline.readAll_exact",
    "Mara.Getline.mararc_lines",
    "Mara.Getline.mararc_exact",
    "Mara.Getline.long_line_hangs",
    "Mara.Getline.long_line_cut",
    "Mara.Getline.long_line_refused",
    "Mara.Getline.unterminated_torn"
   ],
   "note": "Proved for all files whose lines fit the string (255 bytes with the line end, for the configuration file): they are got as they are, and what a configuration file says is proved from its bytes on. A last line without line end is got as it is unless a block begins in it; then it is torn in two (readAll_exact says exactly when, unterminated_torn). The rest is false: a line that is too long makes the program hang, is cut short without a word, or is refused, depending on where the blocks begin (long_line_hangs, long_line_cut, long_line_refused). Files are such that read yields all that is asked for and there."
  },
  {
   "property": "C118",
   "status": "partial",
   "theorems": [
    "Mara.Csv2.loc_exact",
    "Mara.Csv2.nsap_exact_partial",
    "Mara.Csv2.wks_exact_partial",
    "Mara.Csv2.loc_wrong_zero",
    "Mara.Csv2.loc_degrees_ub",
    "Mara.Csv2.loc_next_line",
    "Mara.Csv2.nsap_letter_wrong",
    "Mara.Csv2.wks_one_port",
    "Mara.Csv2.wks_blank_port",
    "Mara.Csv2.naptr_exact_partial",
    "Mara.Csv2.naptr_zone_lost",
    "Mara.Csv2.naptr_root_refused"
   ],
   "note": "Proved for LOC with degrees, minutes and seconds, the altitude followed by m and the record ended by a line end, in files that do not use tildes between records. The rest is false in the code: an NSAP address is right if and only if it has no letters (nsap_exact_partial); a WKS record has all its ports but the last (wks_exact_partial, wks_one_port), and port 0 for a blank after a comma (wks_blank_port); a LOC record with a wrong direction is served with zero (loc_wrong_zero), one with 597 degrees is undefined behaviour (loc_degrees_ub), one whose altitude has no m takes the next line (loc_next_line). NAPTR is proved for names that end in a dot and data of up to 255 bytes (naptr_exact_partial); a name that ends in a percent sign is served without the zone (naptr_zone_lost), and the root is refused as the name (naptr_root_refused). The parsers of the data are modelled on the stream of the file; they are not joined to the model of whole files (C74), which gives such files the outcome other."
  },
  {
   "property": "C119",
   "status": "partial",
   "theorems": [
    "Mara.Log.escaped_printable",
    "Mara.Log.escaped_readable",
    "Mara.Log.broken_one_line",
    "Mara.Log.bad_two_lines",
    "Mara.Log.address_written",
    "Mara.Log.query_logged",
    "Mara.Log.query_logged_more",
    "Mara.Log.query_one_line_partial",
    "Mara.Log.query_forged",
    "Mara.Log.quiet"
   ],
   "note": "Proved for all packets that are refused and for packets shown in full: printable, on one line, and readable byte for byte. The line of a question is proved exactly for all well-formed questions, compressed or not; it is one line of printable characters if the labels are printable. For other questions the statement is false: the name is printed as it is, so any client can write any line of up to 61 bytes to the log (query_forged). Clients have IPv4 addresses, the time stamp is given, and only what is written before the packet is looked up and on errors is modelled."
  },
  {
   "property": "C120",
   "status": "partial",
   "theorems": [
    "Mara.Serial.serial_rises_partial",
    "Mara.Serial.serial_kept_partial",
    "Mara.Serial.serial_six",
    "Mara.Serial.serial_narrow",
    "Mara.Serial.serial_readable_partial",
    "Mara.Serial.serial_hours_partial",
    "Mara.Serial.serial_stuck",
    "Mara.Serial.transfer_newer_partial"
   ],
   "note": "False for files whose name has 200 bytes or more: their serial number is always 1 (serial_stuck). serial_six: six changes in six seconds have one number. gmtime_r is assumed to follow the calendar; changes of files that are read with /read do not count, as only the time of the zone file is looked at."
  },
  {
   "property": "C121",
   "status": "partial",
   "theorems": [
    "Dw.Clock.clock_exact_partial",
    "Dw.Clock.clock_rises_partial",
    "Dw.Clock.clock_stands",
    "Dw.Clock.kept_for_seconds_partial",
    "Dw.Clock.clock_falls"
   ],
   "note": "Proved for all moments after March 1979 with times of 64 bits, and from July 2020 to April 2115 with times of 32 bits. There the clock then falls back by 136 years (clock_falls). The Windows branch is not modelled."
  },
  {
   "property": "C122",
   "status": "proved",
   "theorems": [
    "Dw.Log.bytes_readable",
    "Dw.Log.log_lines",
    "Dw.Log.log_printable",
    "Dw.Log.bytes_told_apart",
    "Dw.Log.address_readable",
    "Dw.Log.data_readable",
    "Dw.Log.log_quiet"
   ],
   "note": "The fixed texts of the messages are printable (Call.Ok). The messages are a list of calls; where the program makes them is not modelled. The Windows branch, which puts a time in front, is not modelled."
  },
  {
   "property": "C123",
   "status": "partial",
   "theorems": [
    "Co.OneFile.files_confined",
    "Co.OneFile.open_exact",
    "Co.OneFile.read_exact_partial",
    "Co.OneFile.read_last",
    "Co.OneFile.read_499",
    "Co.OneFile.read_hidden",
    "Co.OneFile.one_file"
   ],
   "note": "False for a line of 499 bytes, or of 498 with two bytes of line end: an empty line that is not there follows (read_499); proved if lines have fewer than 500 bytes with their line end. That files are closed by coDNS.solve and at the end of a question is not modelled. Links and what the system takes names for are outside."
  },
  {
   "property": "C124",
   "status": "partial",
   "theorems": [
    "Dw.Conf.servers_exact_partial",
    "Dw.Conf.line_exact",
    "Dw.Conf.servers_asked",
    "Dw.Conf.thirteen_fit",
    "Dw.Conf.thirty_fit",
    "Dw.Conf.last_thirty",
    "Dw.Conf.bad_item_hides",
    "Dw.Conf.no_servers",
    "Dw.Conf.servers_not_all",
    "Dw.Conf.all_or_refused",
    "Dw.Conf.any_line_safe"
   ],
   "note": "Proved for lists of up to 30 addresses: kept exactly if they fit (13 of any kind, 30 of IPv4), otherwise kept exactly or refused; no line makes the reading undefined. The last sentence is false: an item that is not an address hides all addresses before it and Deadwood starts (servers_not_all, bad_item_hides); only the last 30 addresses are kept (last_thirty); a value without addresses is taken for all zones but the root (no_servers). inet_pton is a parameter."
  },
  {
   "property": "C125",
   "status": "partial",
   "theorems": [
    "Mara.TextTools.l1toutf8_exact",
    "Mara.TextTools.round_trip",
    "Mara.TextTools.utf8tol1_exact_partial",
    "Mara.TextTools.other_wrong",
    "Mara.TextTools.swallows_next"
   ],
   "note": "The last part is false: characters that Latin-1 does not have become other characters, and one of four bytes takes the next character along (other_wrong, swallows_next). Proved for texts of characters Latin-1 has."
  },
  {
   "property": "C126",
   "status": "partial",
   "theorems": [
    "Mara.TextTools.strip_clean",
    "Mara.TextTools.strip_shows",
    "Mara.TextTools.strip_keeps_partial",
    "Mara.TextTools.strip_not_kept"
   ],
   "note": "The last sentence is false: a byte 255 is written behind every text (strip_not_kept); apart from that it is proved. Control characters are those below 32 and from 128 to 159; the program does not take 127 for one."
  },
  {
   "property": "C127",
   "status": "partial",
   "theorems": [
    "Mara.Stamp.unix_shown_partial",
    "Mara.Stamp.unix_2038",
    "Mara.Stamp.shown_wrong",
    "Mara.Stamp.iso_shown",
    "Mara.Stamp.iso_order",
    "Mara.Stamp.silent",
    "Mara.Stamp.odd_setting"
   ],
   "note": "The first sentence is false from 19 January 2038 on: the time is cut to 32 bits (unix_2038, shown_wrong); proved before that. The rest is proved, if gmtime is right. The Spanish and English formats are modelled, but nothing is proved about them."
  },
  {
   "property": "C128",
   "status": "partial",
   "theorems": [
    "Mara.Duende.log_whole",
    "Mara.Duende.log_lines",
    "Mara.Duende.log_one_line",
    "Mara.Duende.null_hides",
    "Mara.Duende.runs_on",
    "Mara.Duende.stops"
   ],
   "note": "What follows a null within a line is not logged (null_hides); without nulls all of the output is logged. Missing: that the process that logs has read all before it is sent SIGTERM when the daemon ends; the model lets it read to the end. For endings of the process that logs and signals sent to duende see C129."
  },
  {
   "property": "C129",
   "status": "proved",
   "theorems": [
    "Mara.Duende.no_orphans",
    "Mara.Duende.at_most_two",
    "Mara.Duende.hup_passed",
    "Mara.Duende.term_ends",
    "Mara.Duende.term_kept"
   ],
   "note": "fork, pipe, kill and waitpid do not fail in the model, and signals come at the top of a round. When HUP and TERM come at once, duende ends in the first round without a new HUP."
  }
 ]
}