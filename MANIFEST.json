{
 "claims": [
  {
   "property": "C01",
   "status": "proved",
   "theorems": [
    "Loc.Props.cmp_order",
    "Loc.Props.cmp_total",
    "Loc.Props.cmp_zero_same"
   ],
   "note": ""
  },
  {
   "property": "C02",
   "status": "proved",
   "theorems": [
    "Loc.Props.new_accepts",
    "Loc.Props.new_canonical",
    "Loc.Props.built_ok"
   ],
   "note": ""
  },
  {
   "property": "C03",
   "status": "proved",
   "theorems": [
    "Loc.Props.matches_address_iff",
    "Loc.Props.matches_address_prefix"
   ],
   "note": ""
  },
  {
   "property": "C04",
   "status": "proved",
   "theorems": [
    "Loc.Props.is_subnet_iff",
    "Loc.Props.overlaps_iff",
    "Loc.Props.overlaps_nested",
    "Loc.Props.is_subnet_order"
   ],
   "note": ""
  },
  {
   "property": "C05",
   "status": "partial",
   "theorems": [
    "Loc.Props.split_exact_partial",
    "Loc.Props.split_host",
    "Loc.Props.split_odd",
    "Loc.Props.split_violated"
   ],
   "note": "loc_network_subnets also fails on ::/79 and ::fffe:0:0/95, because one half looks IPv4-mapped; proved for every other network, failure proved for exactly these."
  },
  {
   "property": "C06",
   "status": "partial",
   "theorems": [
    "Loc.Props.exclude_exact_partial",
    "Loc.Props.exclude_odd",
    "Loc.Props.exclude_violated",
    "Loc.Props.exclude_not_inside"
   ],
   "note": "Fails exactly when the excluded network lies strictly below one of the two odd blocks inside self."
  },
  {
   "property": "C07",
   "status": "partial",
   "theorems": [
    "Loc.Props.exclude_list_exact_partial",
    "Loc.Props.exclude_list_no_subnet",
    "Loc.Props.exclude_list_fails_iff",
    "Loc.Props.exclude_list_violated"
   ],
   "note": "Same exception as C06: exclude_list_fails_iff says that it fails exactly if a listed network lies strictly below an odd block inside."
  },
  {
   "property": "C08",
   "status": "proved",
   "theorems": [
    "Loc.Props.list_refines_set",
    "Loc.Props.list_refines_set_empty"
   ],
   "note": ""
  },
  {
   "property": "C12",
   "status": "partial",
   "theorems": [
    "Loc.Props.merge_sound",
    "Loc.Props.merge_complete_partial",
    "Loc.Props.merge_violated_odd",
    "Loc.Props.merge_violated_stale"
   ],
   "note": "Soundness complete. Completeness fails for the halves of the two odd blocks and for stale second country code bytes; proved otherwise. __builtin_ctz(0) must be at least 8."
  },
  {
   "property": "C29",
   "status": "partial",
   "theorems": [
    "Loc.Props.bogon_complete_partial",
    "Loc.Props.bogon_exact_partial",
    "Loc.Props.bogons_violated_overlap",
    "Loc.Props.bogons_violated_error",
    "Loc.Props.bogons_violated_missing",
    "Loc.Props.bogons_violated_family"
   ],
   "note": "False in the code, shown on written files by the four `_violated_` theorems. Proved for every written file and filter whose plain enumeration works: every address of the families that occur is covered by a network with a country or by a returned network of its family whenever the enumeration succeeds (up to the hidden trailing gap), and under `BogonsOk` the enumeration succeeds with one summary per maximal gap, exact if every gap is a range the summary covers exactly."
  },
  {
   "property": "C30",
   "status": "partial",
   "theorems": [
    "Loc.Props.summarize_rejects",
    "Loc.Props.single_address_rejected",
    "Loc.Props.range_summary_covers_partial",
    "Loc.Props.summarize_same_half",
    "Loc.Props.summarize_across",
    "Loc.Props.range_summary_exact_iff",
    "Loc.Props.range_summary_violated"
   ],
   "note": "Proved for every range: the call succeeds and covers the whole range; the exact result is characterised, and so are the ranges whose summary is exact. In general the result is the smallest CIDR block around the range, so it is not exact; a range of one address is rejected."
  },
  {
   "property": "C35",
   "status": "proved",
   "theorems": [
    "Loc.Props.set_country_code_exact",
    "Loc.Props.country_code_always_valid",
    "Loc.Props.match_special",
    "Loc.Props.match_valid",
    "Loc.Props.match_invalid_is_truthy"
   ],
   "note": ""
  },
  {
   "property": "C39",
   "status": "partial",
   "theorems": [
    "Loc.Props.increment_exact",
    "Loc.Props.decrement_exact_partial",
    "Loc.Props.decrement_violated",
    "Loc.Props.increment_decrement",
    "Loc.Props.subtract_exact",
    "Loc.Props.subtract_families"
   ],
   "note": "loc_address_decrement maps ::ff00:0:0-like addresses wrongly (IPv6 address whose neighbour looks IPv4-mapped)."
  },
  {
   "property": "C42",
   "status": "proved",
   "theorems": [
    "Loc.Props.get_bit_exact",
    "Loc.Props.set_bit_exact",
    "Loc.Props.common_bits_exact",
    "Loc.Props.bit_length_exact",
    "Loc.Props.bit_length_needs_ctz"
   ],
   "note": ""
  },
  {
   "property": "C09",
   "status": "proved",
   "theorems": [
    "Loc.Props.reach_wf",
    "Loc.Props.add_network_set",
    "Loc.Props.stored_distinct"
   ],
   "note": ""
  },
  {
   "property": "C10",
   "status": "proved",
   "theorems": [
    "Loc.Props.cleanup_preserves_lookup",
    "Loc.Props.write_preserves_lookup"
   ],
   "note": "For every writer history, every value of the (possibly freed) prefix read at network-tree.c:434 and every ctz(0) of at least 8."
  },
  {
   "property": "C11",
   "status": "partial",
   "theorems": [
    "Loc.Props.cleanup_no_repeat_partial",
    "Loc.Props.cleanup_repeat_violated_v6",
    "Loc.Props.cleanup_repeat_violated_stale"
   ],
   "note": "Fails for IPv4 networks enclosed by a stored IPv6 network and for country codes set and cleared; proved otherwise."
  },
  {
   "property": "C25",
   "status": "partial",
   "theorems": [
    "Loc.Props.pool_stable_partial",
    "Loc.Props.pool_distinct",
    "Loc.Props.pool_total_partial",
    "Loc.Props.pool_overflow",
    "Loc.Props.pool_total_violated"
   ],
   "note": "A string of 512 KiB or more is written over the end of the pool's buffer (the buffer grows by one block only); proved for every history in which this does not happen, in particular whenever all strings are shorter."
  },
  {
   "property": "C22",
   "status": "proved",
   "theorems": [
    "Loc.Props.as_roundtrip"
   ],
   "note": "For every writer history with files below 4 GiB; an AS without a name reads back with the empty name."
  },
  {
   "property": "C24",
   "status": "partial",
   "theorems": [
    "Loc.Props.country_sound",
    "Loc.Props.country_roundtrip_partial",
    "Loc.Props.country_violated_order",
    "Loc.Props.country_violated_continent"
   ],
   "note": "Soundness always. Finding every country needs the countries to be added in alphabetical order (the section is not sorted but searched by bisection); a country without continent code gets the one of the previous country (or stack garbage)."
  },
  {
   "property": "C26",
   "status": "proved",
   "theorems": [
    "Loc.Props.metadata_roundtrip"
   ],
   "note": ""
  },
  {
   "property": "C40",
   "status": "proved",
   "theorems": [
    "Loc.Props.layout_wellformed"
   ],
   "note": ""
  },
  {
   "property": "C41",
   "status": "proved",
   "theorems": [
    "Loc.Props.open_requires_magic",
    "Loc.Props.open_written",
    "Loc.Props.write_refuses_unknown",
    "Loc.Props.write_total"
   ],
   "note": ""
  },
  {
   "property": "C27",
   "status": "partial",
   "theorems": [
    "Loc.Props.verify_message_covers",
    "Loc.Props.verify_only_valid",
    "Loc.Props.verify_unsigned",
    "Loc.Props.verify_written_unsigned",
    "Loc.Props.verify_accepts_signed_partial",
    "Loc.Props.verify_accepts_violated"
   ],
   "note": "All parts hold except acceptance of a signed file when OpenSSL ends the check of the other signature with an error (that error is returned although a valid signature follows)."
  },
  {
   "property": "C13",
   "status": "proved",
   "theorems": [
    "Loc.Props.trie_encodes"
   ],
   "note": ""
  },
  {
   "property": "C36",
   "status": "proved",
   "theorems": [
    "Loc.Props.record_roundtrip"
   ],
   "note": "Flags below 2^16 (the file stores 16 bits); the full claim for every network made by the library, every address and prefix it can be read at."
  },
  {
   "property": "C44",
   "status": "partial",
   "theorems": [
    "Loc.Props.write_signs_partial",
    "Loc.Props.write_signs_violated"
   ],
   "note": "EVP_DigestSign failures are only recognised if the return value is negative, but OpenSSL reports failure as 0: then the write succeeds and the file claims a signature of 2048 bytes."
  },
  {
   "property": "C14",
   "status": "partial",
   "theorems": [
    "Loc.Props.lookup_exact",
    "Loc.Props.lookup_longest_prefix_partial",
    "Loc.Props.lookup_longest_prefix_disjoint",
    "Loc.Props.lookup_misses",
    "Loc.Props.lookup_violated",
    "Loc.Props.lookup_violated_95"
   ],
   "note": "The code is not a longest-prefix match: it only looks at the deepest node on the path of the address (10.0.0.0/8 and 10.1.0.0/16 stored: 10.0.0.1 is not found). Exact characterisation proved; longest-prefix match proved where it holds (in particular for databases without nested networks)."
  },
  {
   "property": "C15",
   "status": "proved",
   "theorems": [
    "Loc.Props.lookup_sound",
    "Loc.Props.write_preserves_lookup",
    "Loc.Props.lookup_sound_added"
   ],
   "note": "Flags below 2^16. Both against the networks in the file and against the networks the caller added."
  },
  {
   "property": "C20",
   "status": "partial",
   "theorems": [
    "Loc.Props.lookup_oob_iff",
    "Loc.Props.lookup_bounds_partial",
    "Loc.Props.lookup_bounds_violated"
   ],
   "note": "Violated exactly for addresses that are stored as a single-address network (bit 128 is read and written)."
  },
  {
   "property": "C16",
   "status": "partial",
   "theorems": [
    "Loc.Props.network_enumeration_partial",
    "Loc.Props.network_enumeration_sound",
    "Loc.Props.network_enumeration_violated"
   ],
   "note": "For every written database what is returned is an initial part of the stored networks in order, and all of them if no error is reported (network_enumeration_sound). Completeness is proved for databases without IPv6 networks of /81 to /95 around the IPv4 range and whose networks fit the traversal stack (see C19). With such a network the enumeration can end with an error: bits of a previously visited node remain in the address, it looks like an IPv4 address, and the network is rejected (database.c:1353-1418, network.c:78-133)."
  },
  {
   "property": "C17",
   "status": "partial",
   "theorems": [
    "Loc.Props.filtered_enumeration_partial",
    "Loc.Props.network_enumeration_sound"
   ],
   "note": "network_enumeration_sound: every written database and every filter; an error is only reported at a network of the kind AroundV4, and before it nothing is missing. filtered_enumeration_partial: All filters; the same databases as for C16. A configured but empty list of countries or ASNs counts as configured."
  },
  {
   "property": "C18",
   "status": "proved",
   "theorems": [
    "Loc.Props.enumeration_terminates",
    "Loc.Props.reads_terminate",
    "Loc.Props.index_enumerations_end",
    "Loc.Props.flattened_terminates",
    "Loc.Props.bogons_terminate"
   ],
   "note": "For every database object, whatever the bytes of its sections, and any number of calls; also for flattened enumerations and, up to their first error, for enumerations of bogons."
  },
  {
   "property": "C19",
   "status": "partial",
   "theorems": [
    "Loc.Props.stack_overflow_iff",
    "Loc.Props.stack_bounds_partial",
    "Loc.Props.stack_overflow_violated"
   ],
   "note": "stack_overflow_iff says exactly when entry 256 of the stack is written. It needs a stored /128 with at most one bit set; the counterexample has 128 networks."
  },
  {
   "property": "C23",
   "status": "proved",
   "theorems": [
    "Loc.Props.as_enumeration"
   ],
   "note": "All writer histories and all search strings."
  },
  {
   "property": "C45",
   "status": "partial",
   "theorems": [
    "Loc.Props.country_enumeration_partial"
   ],
   "note": "Missing: continent codes of countries added without one (country_violated_continent: the code of another country or junk is written)."
  },
  {
   "property": "C21",
   "status": "partial",
   "theorems": [
    "Loc.Props.reads_inside_partial",
    "Loc.Props.open_outside_iff",
    "Loc.Props.vendor_outside_iff",
    "Loc.Props.written_strings_end",
    "Loc.Props.open_violated",
    "Loc.Props.reads_violated"
   ],
   "note": "The unsigned difference in the bounds check wraps around: files of 8 to 4191 bytes are accepted and the header is read behind their end; a pool longer than the file is accepted; strings need not be terminated. Proved for all other files, in particular all files written by the library."
  },
  {
   "property": "C46",
   "status": "partial",
   "theorems": [
    "Loc.Props.lookup_outside_iff",
    "Loc.Props.traversal_bounds_partial",
    "Loc.Props.traversal_total_partial",
    "Loc.Props.traversal_violated",
    "Loc.Props.traversal_violated_empty",
    "Loc.Props.flattened_violated_crash"
   ],
   "note": "Violated by a tree of more than 128 levels (bit 128 of the address is written) and by a file without nodes (entry 0 of an empty table is read). Proved for all files whose node graph has a node and is less than 128 deep; cycles are excluded by that. For lookups the condition is exact in every file, with cycles or without: the 16 octets of the address are left exactly if there is a node 128 steps along its bits (lookup_outside_iff)."
  },
  {
   "property": "C28",
   "status": "partial",
   "theorems": [
    "Loc.Props.flattened_partition_partial",
    "Loc.Props.flattened_sound",
    "Loc.Props.flattened_violated",
    "Loc.Props.flattened_violated_crash"
   ],
   "note": "All filters. For all databases of C16: what is returned is right, and complete if no error is reported; before an error nothing is missing in front of the network concerned (flattened_sound). Success is proved for those in which no network has a strict subnet that can only be cut out by cutting ::/79 or ::fffe:0:0/95; otherwise the enumeration can end with an error. When a network cannot be read while subnets are searched for, a null pointer is released: flattened_violated_crash."
  },
  {
   "property": "C31",
   "status": "proved",
   "theorems": [
    "Loc.Props.reverse_pointer_inet6",
    "Loc.Props.reverse_pointer_inet",
    "Loc.Props.reverse_pointer_injective"
   ],
   "note": "Injectivity is per suffix. The function leaks the intermediate buffers; memory is not part of this claim."
  },
  {
   "property": "C32",
   "status": "proved",
   "theorems": [
    "Loc.Props.string_stays_valid",
    "Loc.Props.string_overwritten"
   ],
   "note": "inet_ntop is modelled after glibc; calls with a null pointer format nothing and do not count."
  },
  {
   "property": "C33",
   "status": "partial",
   "theorems": [
    "Loc.Props.parse_accepts_iff",
    "Loc.Props.parse_refuses",
    "Loc.Props.parse_default_prefix",
    "Loc.Props.parse_prefix_exact",
    "Loc.Props.begins_with_some",
    "Loc.Props.parse_prefix_partial",
    "Loc.Props.parse_violated_wrap",
    "Loc.Props.parse_violated_long",
    "Loc.Props.parse_ignores_junk",
    "Loc.Props.mapped_text_no_network"
   ],
   "note": "Acceptance and the default are proved for all strings. The prefix after a slash is proved for strings of at most 48 characters and numbers below 2^32; outside it is wrapped or truncated and a wrong prefix is accepted; parse_prefix_exact says for every string which prefix that is. inet_pton and strtol are modelled after glibc."
  },
  {
   "property": "C34",
   "status": "proved",
   "theorems": [
    "Loc.Props.network_string_roundtrip"
   ],
   "note": "For all networks that satisfy the block invariant (all networks the library makes, C06/C39)."
  },
  {
   "property": "C38",
   "status": "partial",
   "theorems": [
    "Loc.Props.order_independent_partial",
    "Loc.Props.order_violated_padding"
   ],
   "note": "Proved for any history before and after the permuted additions, given that the bytes of the network records nobody initialises (network.c:648-660) are the same in both runs. They need not be: the same calls can give different files."
  },
  {
   "property": "C43",
   "status": "partial",
   "theorems": [
    "Loc.Props.dns_inside_partial",
    "Loc.Props.dns_violated"
   ],
   "note": "dn_expand is a parameter that is assumed to accept only non-empty names inside of the message; strptime is a parameter. Violated by a reply of 512 bytes whose text record ends with the buffer: the terminating NUL is written behind it. Proved for all other replies, including termination."
  },
  {
   "property": "C37",
   "status": "partial",
   "theorems": [
    "Loc.Props.lifetime_partial",
    "Loc.Props.lifetime_no_write",
    "Loc.Props.lifetime_violated",
    "Loc.Props.lifetime_violated_again"
   ],
   "note": "Proved for all histories in which the caller holds a reference to every network in the tree whenever it writes; there the reference counts are also exact afterwards (no leak). Violated otherwise: loc_network_tree_merge_step reads the prefix of a network that the tree has just released (network-tree.c:434)."
  },
  {
   "property": "C47",
   "status": "proved",
   "theorems": [
    "Loc.Props.update_verified"
   ],
   "note": "LZMA and HTTP are parameters: a mirror's reply is any byte sequence that ends normally, with a decompression error, with an HTTP error or with any other exception."
  },
  {
   "property": "C48",
   "status": "partial",
   "theorems": [
    "Loc.Props.update_newer_partial",
    "Loc.Props.update_violated_older"
   ],
   "note": "Proved when a version was announced by DNS. Without an announcement any signed database, also an older one, replaces the local one."
  },
  {
   "property": "C49",
   "status": "partial",
   "theorems": [
    "Loc.Props.update_mirror_partial",
    "Loc.Props.update_outdated_fatal",
    "Loc.Props.update_violated_mirror",
    "Loc.Props.update_violated_damaged"
   ],
   "note": "Proved when all mirrors before the working one answered with HTTP errors. Violated otherwise: the temporary file is not emptied between mirrors (truncate() cuts at the current position), so an outdated or corrupt reply spoils all later ones; connection errors are not caught; a damaged local database cannot be replaced."
  },
  {
   "property": "C50",
   "status": "partial",
   "theorems": [
    "Loc.Props.export_exact_partial",
    "Loc.Props.export_sound",
    "Loc.Props.export_outputs",
    "Loc.Props.export_special_empty",
    "Loc.Props.export_violated"
   ],
   "note": "Proved for ordinary countries and ASes: the files of an export that ends without an exception are right for all databases of C16 (export_sound); it does end so for the databases covered by C28; for the text formats of the output files see C53. Violated for the special codes A1, A2, A3, XD: they are removed from the filter, so only networks of other countries or ASes on the list are written."
  },
  {
   "property": "C51",
   "status": "proved",
   "theorems": [
    "Loc.Props.network_list_memory",
    "Loc.Props.as_list_memory",
    "Loc.Props.country_list_memory",
    "Loc.Props.pop_first_diverges"
   ],
   "note": "Allocation succeeds. Beyond 2^32 elements the loops with unsigned int counters do not end (pop_first_diverges)."
  },
  {
   "property": "C52",
   "status": "partial",
   "theorems": [
    "Loc.Props.names_partial",
    "Loc.Props.names_violated_null",
    "Loc.Props.names_violated_self"
   ],
   "note": "Violated by loc_country_set_name(country, NULL) for a country with a name (the object keeps the pointer to the freed string) and by set_name(o, get_name(o)) for both kinds of objects (the string is read after it was freed). Proved for all other sequences; strdup succeeds."
  },
  {
   "property": "C53",
   "status": "partial",
   "theorems": [
    "Loc.Props.list_format",
    "Loc.Props.nftables_format",
    "Loc.Props.ipset_format_partial",
    "Loc.Props.ipset_outputs_partial",
    "Loc.Props.export_print_partial",
    "Loc.Props.ipset_violated_file",
    "Loc.Props.ipset_violated_append",
    "Loc.Props.ipset_violated_large",
    "Loc.Props.xt_geoip_raises"
   ],
   "note": "Proved for list and nftables on any kind of file. For ipset proved for location export (every output has its own file or buffer) and on pipes, for outputs of at most 1048576 networks of the family. Violated for ipset when standard output is a file: the header is rewritten at the start of the file, over earlier outputs, or (>>) its flush command comes last; more than 1048576 networks cannot be loaded. The format xt_geoip always raises an exception. The floating-point logarithm of the hash size is a parameter; ipset restore and nft are specified in Spec/Formats.lean."
  },
  {
   "property": "C54",
   "status": "partial",
   "theorems": [
    "Loc.Props.py_get_as_partial",
    "Loc.Props.py_get_as_violated",
    "Loc.Props.py_get_as_negative",
    "Loc.Props.py_get_country_refuses",
    "Loc.Props.py_get_country_partial",
    "Loc.Props.py_get_country_sound",
    "Loc.Props.py_lookup_partial",
    "Loc.Props.py_lookup_violated"
   ],
   "note": "get_country is proved under the conditions of C24, with ValueError for every invalid code. Violated by get_as: numbers from 2^31 on raise OverflowError, negative ones are taken modulo 2^32. Violated by lookup: texts that are no address raise OSError, because a break is missing."
  },
  {
   "property": "C55",
   "status": "partial",
   "theorems": [
    "Loc.Props.cli_lookup_partial",
    "Loc.Props.cli_lookup_violated",
    "Loc.Props.cli_lookup_overflow",
    "Loc.Props.cli_get_as_partial",
    "Loc.Props.cli_get_as_violated"
   ],
   "note": "Proved for all lists of addresses (not stored as networks of their own, C18) under the conditions of C24 and for AS numbers below 2^31. Violated: a text that is no address ends location lookup with an uncaught OSError, an AS number from 2^31 on with an uncaught OverflowError; the same for location get-as.  For the layout see C91."
  },
  {
   "property": "C56",
   "status": "partial",
   "theorems": [
    "Loc.Props.script_as",
    "Loc.Props.script_country_partial",
    "Loc.Props.script_country_violated",
    "Loc.Props.script_country_invalid",
    "Loc.Props.as_text_partial",
    "Loc.Props.as_text_violated"
   ],
   "note": "Violated: in every written database both bindings crash when asked for a valid country code that was not added. The text of ASes with numbers from 2^31 on is negative."
  },
  {
   "property": "C57",
   "status": "partial",
   "theorems": [
    "Loc.Props.py_network",
    "Loc.Props.py_add_network_partial",
    "Loc.Props.py_add_network_violated",
    "Loc.Props.py_country_partial",
    "Loc.Props.py_country_violated",
    "Loc.Props.py_set_country_code",
    "Loc.Props.py_set_asn",
    "Loc.Props.py_add_as_partial",
    "Loc.Props.py_add_as_violated",
    "Loc.Props.py_exclude_partial",
    "Loc.Props.py_exclude_violated",
    "Loc.Props.py_as_name_violated"
   ],
   "note": "Network() and the setters are proved. Violated: Writer.add_network, Writer.add_country and Country() raise SystemError for invalid texts, Writer.add_as refuses numbers from 2^31 on, Network.exclude crashes on odd blocks, and so does reading the name of an AS without name."
  },
  {
   "property": "C58",
   "status": "partial",
   "theorems": [
    "Loc.Props.import_lookup_partial",
    "Loc.Props.import_lookup_unknown",
    "Loc.Props.import_lookup_violated"
   ],
   "note": "What is found is what the tables say. Not every address of the tables is found (C16; import_lookup_violated). SQL is modelled by the meaning of the statements; choices among rows of equal rank are a parameter. One output file; IPv6 networks in the tables do not contain IPv4-mapped addresses."
  },
  {
   "property": "C59",
   "status": "partial",
   "theorems": [
    "Loc.Props.import_succeeds_partial",
    "Loc.Props.import_succeeds_violated",
    "Loc.Props.import_big_asn",
    "Loc.Props.import_big_as",
    "Loc.Props.import_bad_country"
   ],
   "note": "Proved for AS numbers below 2^31. Violated above: the column autnum of the temporary table is a 32 bit signed integer and Writer.add_as takes an int. One invalid country makes the whole import fail."
  },
  {
   "property": "C60",
   "status": "proved",
   "theorems": [
    "Loc.Props.import_ases",
    "Loc.Props.import_countries",
    "Loc.Props.import_metadata"
   ],
   "note": "The rows of countries come in alphabetical order (ORDER BY country_code) with continents, so the conditions of C24 are met."
  },
  {
   "property": "C61",
   "status": "proved",
   "theorems": [
    "Loc.Props.blocks_exact",
    "Loc.Props.file_read",
    "Loc.Props.file_meaning_unique"
   ],
   "note": "For the white space of ASCII; decoding is not modelled."
  },
  {
   "property": "C62",
   "status": "partial",
   "theorems": [
    "Loc.Props.dump_reads_back_partial",
    "Loc.Props.dump_violated_name",
    "Loc.Props.dump_violated_vendor"
   ],
   "note": "Names of ASes with # or newline or white space on either end, and newlines in vendor or license, are not escaped (violated); databases that an enumeration does not return completely (C18) are excluded."
  },
  {
   "property": "C63",
   "status": "proved",
   "theorems": [
    "Loc.Props.overrides_exact",
    "Loc.Props.overrides_success"
   ],
   "note": "Geofeeds are not modelled; forms of networks that only Python accepts (netmasks, scope ids) and signs in front of numbers are not accepted by the model."
  },
  {
   "property": "C64",
   "status": "partial",
   "theorems": [
    "Loc.Props.dump_as_overrides_partial"
   ],
   "note": "Under the conditions of C62. Networks with a prefix of length zero are skipped by update-overrides."
  },
  {
   "property": "C65",
   "status": "proved",
   "theorems": [
    "Loc.Props.update_cron_recent",
    "Loc.Props.update_cron_other"
   ],
   "note": "Time is a number of seconds; delta is the period. Found by a wrong program that no theorem noticed."
  },
  {
   "property": "C66",
   "status": "partial",
   "theorems": [
    "Loc.Props.copied_countries_partial",
    "Loc.Props.copied_countries_first",
    "Loc.Props.copied_entries",
    "Loc.Props.copied_countries_violated"
   ],
   "note": "Violated by an entry without a country that is of the smallest prefix length of its source and lies inside of an entry with a country of another source. Proved if there are no such entries. SQL is modelled by the meaning of the statements."
  },
  {
   "property": "C67",
   "status": "partial",
   "theorems": [
    "Loc.Props.statistics_line",
    "Loc.Props.statistics_exact_partial",
    "Loc.Props.statistics_violated",
    "Loc.Props.statistics_zero"
   ],
   "note": "Violated for IPv4 lines whose number of addresses is not a power of two or does not divide the first address; a number that is not positive ends the import of the source. Proved for the other lines."
  },
  {
   "property": "C68",
   "status": "proved",
   "theorems": [
    "Loc.Props.object_networks",
    "Loc.Props.range_networks",
    "Loc.Props.object_range",
    "Loc.Props.object_faults"
   ],
   "note": "is_global of Python's networks is a parameter. IPv6 ranges that reach into the IPv4-mapped addresses are excluded. Faulty objects raise exceptions (object_faults, C70)."
  },
  {
   "property": "C69",
   "status": "proved",
   "theorems": [
    "Loc.Props.source_names",
    "Loc.Props.parts_exist"
   ],
   "note": "For sources that are processed without exception; the fields of lines of the list of ARIN are given (the CSV reader is not modelled)."
  },
  {
   "property": "C70",
   "status": "partial",
   "theorems": [
    "Loc.Props.update_whole",
    "Loc.Props.update_done",
    "Loc.Props.source_processed",
    "Loc.Props.source_entries",
    "Loc.Props.source_countries_partial",
    "Loc.Props.source_countries_violated",
    "Loc.Props.update_faulty"
   ],
   "note": "Atomicity, success of sources without faulty parts and what the entries are is proved. The countries of addresses are those of C66, with its exception (violated). Downloads and geofeeds are not modelled. One faulty object keeps the whole source out (update_faulty)."
  },
  {
   "property": "C71",
   "status": "partial",
   "theorems": [
    "Loc.Props.exclude_lifetime",
    "Loc.Props.exclude_list_lifetime",
    "Loc.Props.enumeration_lifetime",
    "Loc.Props.enumeration_no_leak",
    "Loc.Props.enumeration_start",
    "Loc.Props.enumeration_objects",
    "Loc.Props.enumeration_kept",
    "Loc.Props.bogon_lifetime_partial",
    "Loc.Props.bogons_never_released",
    "Loc.Props.bogons_violated_leak"
   ],
   "note": "Proved for exclusions and for enumerations, flattened or not. Bogon enumerations use no released network, but every bogon leaks (violated). Memory never runs out. Other faults (a NULL pointer in flattened enumerations, C28) end an execution."
  },
  {
   "property": "C72",
   "status": "partial",
   "theorems": [
    "Loc.Props.list_by_as_partial",
    "Loc.Props.list_by_as_number",
    "Loc.Props.list_by_as_refused",
    "Loc.Props.list_by_as_violated_number",
    "Loc.Props.list_by_as_violated_nested",
    "Loc.Props.list_by_country_partial",
    "Loc.Props.list_by_country_violated_code",
    "Loc.Props.list_by_flags_partial",
    "Loc.Props.list_by_flags_none",
    "Loc.Props.list_bogons_partial",
    "Loc.Props.list_bogons_ipset_partial",
    "Loc.Props.list_bogons_violated_ipset",
    "Loc.Props.search_as_partial",
    "Loc.Props.list_countries_partial",
    "Loc.Props.list_countries_violated",
    "Loc.Props.list_format_refused",
    "Loc.Props.list_failure",
    "Loc.Props.export_objects",
    "Loc.Props.export_arguments_partial",
    "Loc.Props.export_arguments_violated"
   ],
   "note": "Proved for databases that can be enumerated (C16, C19) and, for bogons, under the conditions of C29; in the format ipset if no bogon is printed twice. Violated: bogons can be printed twice, and then ipset refuses the list; listings also cover addresses of networks inside that belong elsewhere; numbers beyond 32 bits list another AS; invalid country codes give exit code 1; a country without continent ends list-countries --show-continent; export with only invalid arguments exports everything."
  },
  {
   "property": "C73",
   "status": "partial",
   "theorems": [
    "Loc.Props.objects_never_stale",
    "Loc.Props.objects_exact_partial",
    "Loc.Props.objects_released_partial",
    "Loc.Props.objects_local",
    "Loc.Props.objects_string_violated",
    "Loc.Props.objects_search_violated",
    "Loc.Props.objects_descriptor_violated",
    "Loc.Props.objects_memory_violated",
    "Loc.Props.python_none_violated",
    "Loc.Props.python_init_violated"
   ],
   "note": "Never using what was released, and keeping what is reachable, is proved for all failures. Releasing everything else, and never following NULL, is proved except for the calls and failures in the counterexamples: setting the string of an enumerator twice, failing searches from Python, dup returning 0, fdopen failing, and running out of memory in three places. Networks on lists and in trees: see C37, C71."
  },
  {
   "property": "C74",
   "status": "partial",
   "theorems": [
    "Loc.Props.python_eq",
    "Loc.Props.python_order",
    "Loc.Props.python_order_total",
    "Loc.Props.python_sorted",
    "Loc.Props.python_hash",
    "Loc.Props.python_set_partial",
    "Loc.Props.python_ne",
    "Loc.Props.python_ne_violated",
    "Loc.Props.python_le_violated",
    "Loc.Props.python_hash_violated",
    "Loc.Props.python_unmade_violated",
    "Loc.Props.python_as_partial",
    "Loc.Props.python_as_violated",
    "Loc.Props.python_as_number_partial",
    "Loc.Props.python_as_number_violated",
    "Loc.Props.lua_eq_partial",
    "Loc.Props.lua_eq_violated",
    "Loc.Props.lua_eq_violated_types"
   ],
   "note": "Equality, <, > and sorting are proved for Python. Violated: != compares identities, so equal objects are also unequal; <= and >= raise; networks cannot be hashed; AS(n) refuses numbers from 2147483648 and takes negative ones; in Lua only countries can be compared."
  },
  {
   "property": "C75",
   "status": "partial",
   "theorems": [
    "Loc.Props.announce_lines",
    "Loc.Props.announcements_exact_partial",
    "Loc.Props.announcements_purge",
    "Loc.Props.announcements_refused",
    "Loc.Props.announcements_empty_number",
    "Loc.Props.announcements_violated_second",
    "Loc.Props.announcements_violated_protocol",
    "Loc.Props.announcements_violated_error",
    "Loc.Props.announcements_violated_closed",
    "Loc.Props.announcements_violated_empty",
    "Loc.Props.announcements_violated_around"
   ],
   "note": "Proved for replies with one route per network and protocols whose names do not begin with AS. Violated: a second route to a network or such a protocol makes the whole import fail; an error reply, a closed connection and an empty line make it wait for ever; networks around special-purpose networks are kept. The dump of bgpdump is not modelled."
  },
  {
   "property": "C76",
   "status": "partial",
   "theorems": [
    "Loc.Props.script_lookup_partial",
    "Loc.Props.script_lookup_refused",
    "Loc.Props.perl_flag_refused",
    "Loc.Props.lua_properties",
    "Loc.Props.lua_network_new",
    "Loc.Props.lua_subnets_partial",
    "Loc.Props.lua_reverse_pointer",
    "Loc.Props.perl_countries",
    "Loc.Props.perl_countries_all",
    "Loc.Props.lua_networks_partial",
    "Loc.Props.lua_networks_all",
    "Loc.Props.script_metadata",
    "Loc.Props.script_verify",
    "Loc.Props.script_lookup_violated",
    "Loc.Props.perl_lookup_violated",
    "Loc.Props.perl_verify_violated"
   ],
   "note": "Proved for addresses that are not stored as networks of their own (C18) and, in Perl, networks with a country. Violated: Perl gets the empty string instead of undef for networks without a country; text behind a NUL is ignored; verify in Perl dies instead of returning false."
  },
  {
   "property": "C77",
   "status": "partial",
   "theorems": [
    "Loc.Props.feeds_exact_partial",
    "Loc.Props.feeds_unique",
    "Loc.Props.feeds_violated_page",
    "Loc.Props.feeds_violated_entry",
    "Loc.Props.feeds_violated_twice"
   ],
   "note": "Proved: exactly which rows are there afterwards, and the exit code. Violated: a page that is no feed empties a list of Spamhaus with exit code 0; one AWS entry that is no network (a misspelt exception) or a network listed twice spoils the whole feed."
  },
  {
   "property": "C78",
   "status": "partial",
   "theorems": [
    "Loc.Props.geofeeds_exact_partial",
    "Loc.Props.geofeeds_file",
    "Loc.Props.geofeeds_clean",
    "Loc.Props.geofeeds_used",
    "Loc.Props.geofeeds_violated",
    "Loc.Props.demo_geofeeds",
    "Loc.Props.demo_fatal"
   ],
   "note": "Proved for every order of the downloads: what is registered, fetched, recorded, kept and used, and when the command fails. Violated: one server that closes the connection, one damaged file or one line with a NUL ends the whole command, so that other geofeeds are not fetched and old data is not forgotten."
  },
  {
   "property": "C79",
   "status": "partial",
   "theorems": [
    "Loc.Props.countries_exact_partial",
    "Loc.Props.countries_violated"
   ],
   "note": "Proved: which lines are taken, and that a failure changes nothing. Violated: every line of three words is taken for a country (also an indented comment), whereupon write fails."
  },
  {
   "property": "C80",
   "status": "partial",
   "theorems": [
    "Loc.Props.writing_exact_partial",
    "Loc.Props.writing_blind",
    "Loc.Props.writing_short",
    "Loc.Props.writing_hangs",
    "Loc.Props.writing_readonly",
    "Loc.Props.writing_headerless",
    "Loc.Props.demo_writing"
   ],
   "note": "Proved: on every stream that takes all bytes, the result and the file are those of the other theorems about writing. Violated: without keys a failing fwrite is never noticed (success with a damaged file, even if the whole header is missing), and on a stream that keeps refusing bytes the function never returns; proved exactly when."
  },
  {
   "property": "C81",
   "status": "partial",
   "theorems": [
    "Loc.Props.level_exact_partial",
    "Loc.Props.level_unknown",
    "Loc.Props.messages_exact",
    "Loc.Props.level_violated"
   ],
   "note": "Proved for all numbers below 2^31, names, and all sequences of calls. Violated: values that are unknown or empty turn errors off, and loc_set_log_fn sets nothing."
  },
  {
   "property": "C82",
   "status": "proved",
   "theorems": [
    "Loc.Props.dump_safe",
    "Loc.Props.dump_exact"
   ],
   "note": "Any data below 4 GiB for the bounds and the number of lines; up to 64 KiB, the largest buffer that is dumped, for the contents of each line. From 4 GiB on the 32 bit counter would never reach the end, which no caller can cause."
  },
  {
   "property": "C83",
   "status": "partial",
   "theorems": [
    "Loc.Props.verify_reads",
    "Loc.Props.verify_reads_only_valid",
    "Loc.Props.verify_reads_ends_partial",
    "Loc.Props.verify_disk",
    "Loc.Props.verify_endless_violated",
    "Loc.Props.open_reads_partial",
    "Loc.Props.open_descriptor_violated"
   ],
   "note": "Proved for all streams: every answer is the one for the contents or an error after a read error, and 0 needs a valid signature of the whole contents; it ends if there are finitely many errors. Violated: if some part behind the header stays unreadable, verification never ends; if standard input is closed no database can be opened."
  },
  {
   "property": "C84",
   "status": "partial",
   "theorems": [
    "Loc.Props.cleanup_joins_partial",
    "Loc.Props.cleanup_joins_flat",
    "Loc.Props.cleanup_unjoined_violated",
    "Loc.Props.cleanup_unjoined_violated_v6",
    "Loc.Props.cleanup_unjoined_violated_freed"
   ],
   "note": "Proved: two halves are left only if their union had been added itself; nothing is left to join if no network added lies inside another. Violated in three ways: the union was taken when the halves were looked at and was joined later, an IPv4 network lies between IPv6 halves around the IPv4 range, or the freed network read again (see C37) clears the list."
  },
  {
   "property": "C85",
   "status": "partial",
   "theorems": [
    "Loc.Props.write_again_partial",
    "Loc.Props.write_again_flat",
    "Loc.Props.cleanup_again_partial",
    "Loc.Props.cleanup_fixed_joined",
    "Loc.Props.write_again_violated_name",
    "Loc.Props.write_again_violated_join"
   ],
   "note": "Proved for writers whose ASes all have names and whose halves the first write joined (always so if no network lies inside another): the second write gives the same bytes and leaves the writer as it is. Violated in two ways: empty strings are stored again by every write, and the second clean-up may join halves the first one left (see C84). IPv6 networks with IPv4 addresses in them are excluded."
  },
  {
   "property": "C86",
   "status": "partial",
   "theorems": [
    "Loc.Props.retrieve_exact_partial",
    "Loc.Props.retrieve_chunked",
    "Loc.Props.retrieve_part",
    "Loc.Props.retrieve_compressed",
    "Loc.Props.retrieve_violated_cut",
    "Loc.Props.retrieve_violated_empty",
    "Loc.Props.retrieve_violated_silent",
    "Loc.Props.retrieve_geofeed_partial",
    "Loc.Props.retrieve_geofeed_silent"
   ],
   "note": "Proved for connections that are not closed before the end of the document, and for all chunked replies. Violated: if the connection is closed early in a document of known length, the part that has arrived is taken for the document (an empty one if nothing has arrived, even of compressed documents), so that a geofeed is emptied and noted as updated; without a timeout a silent server is waited for without end. What http.client does is modelled after CPython, gzip is a parameter."
  },
  {
   "property": "C87",
   "status": "partial",
   "theorems": [
    "Loc.Props.https_request_partial",
    "Loc.Props.http_request_iff",
    "Loc.Props.https_plain_violated",
    "Loc.Props.https_detour_violated",
    "Loc.Props.http_request_violated",
    "Loc.Props.demo_proxies"
   ],
   "note": "Proved for https URLs if no proxy is set for http, and for http URLs exactly if no proxy is set for https. Violated: with both proxies set, requests for https URLs go out as plain http; with only one, requests of the other kind go to it as well. What urllib does is modelled after CPython; no_proxy and names of users are left out."
  },
  {
   "property": "C88",
   "status": "proved",
   "theorems": [
    "Loc.Props.geofeed_tasks",
    "Loc.Props.geofeed_connection_kept",
    "Loc.Props.geofeed_tasks_end"
   ],
   "note": "All executions, for any number of geofeeds. At most 34 of the 512 connections are in use. What asyncio's event loop, Semaphore and TaskGroup do is modelled after CPython 3.11, the pool after psycopg_pool. If a task fails the others are cancelled (see C78)."
  },
  {
   "property": "C89",
   "status": "proved",
   "theorems": [
    "Loc.Props.date_text",
    "Loc.Props.date_read",
    "Loc.Props.date_whole",
    "Loc.Props.date_injective",
    "Loc.Props.reply_read",
    "Loc.Props.date_discovered"
   ],
   "note": "The calendar of the specification counts day by day. gmtime, strftime, strptime and timegm are modelled after glibc in the C locale. From the year 10000 on dates are written that are not read; the day of the week and impossible days such as 31 February are not checked when a date is read (examples beside the theorems). Replies that fill the buffer are excluded, see C43."
  },
  {
   "property": "C90",
   "status": "proved",
   "theorems": [
    "Loc.Props.verify_exit",
    "Loc.Props.version_printed",
    "Loc.Props.version_late"
   ],
   "note": "Errors reported by OpenSSL are excluded, see C27; files below 4200 bytes are covered by C21. The messages on standard error are not modelled. A file that says it was made after the year 2147485547 makes `location version` fail (version_late)."
  },
  {
   "property": "C91",
   "status": "partial",
   "theorems": [
    "Loc.Props.lookup_text_partial",
    "Loc.Props.lookup_text_read",
    "Loc.Props.shows_plain",
    "Loc.Props.lookup_text_violated",
    "Loc.Props.get_as_text_partial"
   ],
   "note": "Proved: the text under the conditions of C55; it can be read back if no name has a newline in it. Violated: a name with a newline can look like another line, for instance like a flag; the library and the bindings accept such names (the importer does not make them). Texts without a translation; names are bytes."
  },
  {
   "property": "C92",
   "status": "partial",
   "theorems": [
    "Loc.Props.lookup_local_partial",
    "Loc.Props.lookup_local_found",
    "Loc.Props.lookup_local_violated"
   ],
   "note": "Proved: if the address is found in both databases, the answers are the same; where lookups are longest-prefix matches (C14) it is found in both or in none. Violated: 10.0.0.1 is found in a database with 10.0.0.0/8, but not any more when 10.1.0.0/16 is added."
  },
  {
   "property": "C93",
   "status": "partial",
   "theorems": [
    "Loc.Props.lookup_listed",
    "Loc.Props.lookup_flattened",
    "Loc.Props.lookup_bogon_partial",
    "Loc.Props.lookup_flattened_violated",
    "Loc.Props.lookup_bogon_violated"
   ],
   "note": "Proved: for every address which is found, agreement with the enumeration that ends without an error and with the flattened one; with the bogons if these are exact (C29). Violated: 10.0.0.1 is in the flattened enumeration of a database with 10.0.0.0/8 and 10.1.0.0/16, but is not found (C14); and it is both found in DE and in a bogon if only 10.0.0.0/8 is stored (C29)."
  },
  {
   "property": "C94",
   "status": "partial",
   "theorems": [
    "Loc.Props.export_apart",
    "Loc.Props.export_lookup",
    "Loc.Props.export_lookup_violated"
   ],
   "note": "Proved for all exports of databases that can be enumerated (C16, C19) that end without an exception; for special codes only that addresses on the list have the flag. Violated for special codes: an address with the flag of anonymous proxies is not on the list for A1 (see C50)."
  },
  {
   "property": "C95",
   "status": "proved",
   "theorems": [
    "Loc.Props.keys_only_signatures",
    "Loc.Props.keys_same_lookups",
    "Loc.Props.keys_same_answers"
   ],
   "note": "Both writes end successfully; the bytes 68 to 4167 hold the signatures and their lengths. Bytes that the code leaves uninitialised in the records and the clock are the same for both writers. Files are read back below 2^32 bytes."
  },
  {
   "property": "C96",
   "status": "partial",
   "theorems": [
    "Loc.Props.copy_same_partial",
    "Loc.Props.copy_allowed",
    "Loc.Props.copy_same_violated"
   ],
   "note": "Proved if the enumeration ends without an error (C16), no IPv6 network with IPv4 addresses in it was added, all halves were joined by the first write (C84), and nothing is lost when the networks are stored (flags of more than 16 bits, half a country code). Violated otherwise: halves that the first write left are joined in the copy, so that lookups return a larger network (of the same country, AS and flags)."
  },
  {
   "property": "C97",
   "status": "proved",
   "theorems": [
    "Loc.Props.size_bound",
    "Loc.Props.size_total",
    "Loc.Props.size_practical"
   ],
   "note": "Each earlier write may add strings again (an empty string for every AS without a name, former names of renamed ASes). The numbers at the end are for histories without an earlier write. IPv4 prefixes count 96 bits more than written. A file written over keeps its length if it was longer. Beyond 4 GiB offsets are cut off without an error (writer.c:293-308, 397, 498, 527), see C98."
  },
  {
   "property": "C98",
   "status": "partial",
   "theorems": [
    "Loc.Props.large_refused_partial",
    "Loc.Props.large_refused_violated"
   ],
   "note": "Proved as long as what the calls add (C97) stays below 4 GiB. Violated beyond: after adding 2^29 ASes the write succeeds, the length of the section is stored as 0 and no AS is found."
  },
  {
   "property": "C99",
   "status": "proved",
   "theorems": [
    "Loc.Props.as_search_steps",
    "Loc.Props.country_search_steps",
    "Loc.Props.search_steps_any"
   ],
   "note": "For any database value, opened from any bytes. The rounds are counted by the fuel of the model's loop: with k+1 rounds the result is that of the whole search and never the outcome for a loop that did not end."
  },
  {
   "property": "C100",
   "status": "proved",
   "theorems": [
    "Loc.Props.lookup_depends"
   ],
   "note": "The answer includes the outcomes for reads outside of the file and outside of the address (C20, C21)."
  }
 ]
}