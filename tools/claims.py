c("C01", "proved", "cmp_order cmp_total cmp_zero_same")
c("C02", "proved", "new_accepts new_canonical built_ok")
c("C03", "proved", "matches_address_iff matches_address_prefix")
c("C04", "proved", "is_subnet_iff overlaps_iff overlaps_nested is_subnet_order")
c("C05", "partial", "split_exact_partial split_host split_odd split_violated",
  "loc_network_subnets also fails on ::/79 and ::fffe:0:0/95, because one half looks IPv4-mapped; proved for every other network, failure proved for exactly these.")
c("C06", "partial", "exclude_exact_partial exclude_odd exclude_violated exclude_not_inside",
  "Fails exactly when the excluded network lies strictly below one of the two odd blocks inside self.")
c("C07", "partial", "exclude_list_exact_partial exclude_list_no_subnet exclude_list_fails_iff exclude_list_violated",
  "Same exception as C06: exclude_list_fails_iff says that it fails exactly if a listed network lies strictly below an odd block inside.")
c("C08", "proved", "list_refines_set list_refines_set_empty")
c("C12", "partial", "merge_sound merge_complete_partial merge_violated_odd merge_violated_stale",
  "Soundness complete. Completeness fails for the halves of the two odd blocks and for stale second country code bytes; proved otherwise. __builtin_ctz(0) must be at least 8.")
c("C29", "partial", "bogon_complete_partial bogon_exact_partial bogons_violated_overlap bogons_violated_error bogons_violated_missing bogons_violated_family",
  "False in the code, shown on written files by the four `_violated_` theorems. Proved for every written file and filter whose plain enumeration works: every address of the families that occur is covered by a network with a country or by a returned network of its family whenever the enumeration succeeds (up to the hidden trailing gap), and under `BogonsOk` the enumeration succeeds with one summary per maximal gap, exact if every gap is a range the summary covers exactly.")
c("C30", "partial", "summarize_rejects single_address_rejected range_summary_covers_partial summarize_same_half summarize_across range_summary_exact_iff range_summary_violated",
  "Proved for every range: the call succeeds and covers the whole range; the exact result is characterised, and so are the ranges whose summary is exact. In general the result is the smallest CIDR block around the range, so it is not exact; a range of one address is rejected.")
c("C35", "proved", "set_country_code_exact country_code_always_valid match_special match_valid match_invalid_is_truthy")
c("C39", "partial", "increment_exact decrement_exact_partial decrement_violated increment_decrement subtract_exact subtract_families",
  "loc_address_decrement maps ::ff00:0:0-like addresses wrongly (IPv6 address whose neighbour looks IPv4-mapped).")
c("C42", "proved", "get_bit_exact set_bit_exact common_bits_exact bit_length_exact bit_length_needs_ctz")
c("C09", "proved", "reach_wf add_network_set stored_distinct")
c("C10", "proved", "cleanup_preserves_lookup write_preserves_lookup",
  "For every writer history, every value of the (possibly freed) prefix read at network-tree.c:434 and every ctz(0) of at least 8.")
c("C11", "partial", "cleanup_no_repeat_partial cleanup_repeat_violated_v6 cleanup_repeat_violated_stale",
  "Fails for IPv4 networks enclosed by a stored IPv6 network and for country codes set and cleared; proved otherwise.")
c("C25", "partial", "pool_stable_partial pool_distinct pool_total_partial pool_overflow pool_total_violated",
  "A string of 512 KiB or more is written over the end of the pool's buffer (the buffer grows by one block only); proved for every history in which this does not happen, in particular whenever all strings are shorter.")
c("C22", "proved", "as_roundtrip",
  "For every writer history with files below 4 GiB; an AS without a name reads back with the empty name.")
c("C24", "partial", "country_sound country_roundtrip_partial country_violated_order country_violated_continent",
  "Soundness always. Finding every country needs the countries to be added in alphabetical order (the section is not sorted but searched by bisection); a country without continent code gets the one of the previous country (or stack garbage).")
c("C26", "proved", "metadata_roundtrip")
c("C40", "proved", "layout_wellformed")
c("C41", "proved", "open_requires_magic open_written write_refuses_unknown write_total")
c("C27", "partial", "verify_message_covers verify_only_valid verify_unsigned verify_written_unsigned verify_accepts_signed_partial verify_accepts_violated",
  "All parts hold except acceptance of a signed file when OpenSSL ends the check of the other signature with an error (that error is returned although a valid signature follows).")
c("C13", "proved", "trie_encodes")
c("C36", "proved", "record_roundtrip",
  "Flags below 2^16 (the file stores 16 bits); the full claim for every network made by the library, every address and prefix it can be read at.")
c("C44", "partial", "write_signs_partial write_signs_violated",
  "EVP_DigestSign failures are only recognised if the return value is negative, but OpenSSL reports failure as 0: then the write succeeds and the file claims a signature of 2048 bytes.")
c("C14", "partial", "lookup_exact lookup_longest_prefix_partial lookup_longest_prefix_disjoint lookup_misses lookup_violated lookup_violated_95",
  "The code is not a longest-prefix match: it only looks at the deepest node on the path of the address (10.0.0.0/8 and 10.1.0.0/16 stored: 10.0.0.1 is not found). Exact characterisation proved; longest-prefix match proved where it holds (in particular for databases without nested networks).")
c("C15", "proved", "lookup_sound write_preserves_lookup lookup_sound_added",
  "Flags below 2^16. Both against the networks in the file and against the networks the caller added.")
c("C20", "partial", "lookup_oob_iff lookup_bounds_partial lookup_bounds_violated",
  "Violated exactly for addresses that are stored as a single-address network (bit 128 is read and written).")

c("C16", "partial", "network_enumeration_partial network_enumeration_sound network_enumeration_violated",
  "For every written database what is returned is an initial part of the stored networks in order, and all of them if no error is reported (network_enumeration_sound). Completeness is proved for databases without IPv6 networks of /81 to /95 around the IPv4 range and whose networks fit the traversal stack (see C19). With such a network the enumeration can end with an error: bits of a previously visited node remain in the address, it looks like an IPv4 address, and the network is rejected (database.c:1353-1418, network.c:78-133).")
c("C17", "partial", "filtered_enumeration_partial network_enumeration_sound",
  "network_enumeration_sound: every written database and every filter; an error is only reported at a network of the kind AroundV4, and before it nothing is missing. filtered_enumeration_partial: All filters; the same databases as for C16. A configured but empty list of countries or ASNs counts as configured.")
c("C18", "proved", "enumeration_terminates reads_terminate index_enumerations_end flattened_terminates bogons_terminate",
  "For every database object, whatever the bytes of its sections, and any number of calls; also for flattened enumerations and, up to their first error, for enumerations of bogons.")
c("C19", "partial", "stack_overflow_iff stack_bounds_partial stack_overflow_violated",
  "stack_overflow_iff says exactly when entry 256 of the stack is written. It needs a stored /128 with at most one bit set; the counterexample has 128 networks.")
c("C23", "proved", "as_enumeration", "All writer histories and all search strings.")
c("C45", "partial", "country_enumeration_partial",
  "Missing: continent codes of countries added without one (country_violated_continent: the code of another country or junk is written).")
c("C21", "partial", "reads_inside_partial open_outside_iff vendor_outside_iff written_strings_end open_violated reads_violated",
  "The unsigned difference in the bounds check wraps around: files of 8 to 4191 bytes are accepted and the header is read behind their end; a pool longer than the file is accepted; strings need not be terminated. Proved for all other files, in particular all files written by the library.")
c("C46", "partial", "lookup_outside_iff traversal_bounds_partial traversal_total_partial traversal_violated traversal_violated_empty flattened_violated_crash",
  "Violated by a tree of more than 128 levels (bit 128 of the address is written) and by a file without nodes (entry 0 of an empty table is read). Proved for all files whose node graph has a node and is less than 128 deep; cycles are excluded by that. For lookups the condition is exact in every file, with cycles or without: the 16 octets of the address are left exactly if there is a node 128 steps along its bits (lookup_outside_iff).")
c("C28", "partial", "flattened_partition_partial flattened_sound flattened_violated flattened_violated_crash",
  "All filters. For all databases of C16: what is returned is right, and complete if no error is reported; before an error nothing is missing in front of the network concerned (flattened_sound). Success is proved for those in which no network has a strict subnet that can only be cut out by cutting ::/79 or ::fffe:0:0/95; otherwise the enumeration can end with an error. When a network cannot be read while subnets are searched for, a null pointer is released: flattened_violated_crash.")
c("C31", "proved", "reverse_pointer_inet6 reverse_pointer_inet reverse_pointer_injective",
  "Injectivity is per suffix. The function leaks the intermediate buffers; memory is not part of this claim.")
c("C32", "proved", "string_stays_valid string_overwritten", "inet_ntop is modelled after glibc; calls with a null pointer format nothing and do not count.")
c("C33", "partial", "parse_accepts_iff parse_refuses parse_default_prefix parse_prefix_exact begins_with_some parse_prefix_partial parse_violated_wrap parse_violated_long parse_ignores_junk mapped_text_no_network",
  "Acceptance and the default are proved for all strings. The prefix after a slash is proved for strings of at most 48 characters and numbers below 2^32; outside it is wrapped or truncated and a wrong prefix is accepted; parse_prefix_exact says for every string which prefix that is. inet_pton and strtol are modelled after glibc.")
c("C34", "proved", "network_string_roundtrip", "For all networks that satisfy the block invariant (all networks the library makes, C06/C39).")
c("C38", "partial", "order_independent_partial order_violated_padding",
  "Proved for any history before and after the permuted additions, given that the bytes of the network records nobody initialises (network.c:648-660) are the same in both runs. They need not be: the same calls can give different files.")
c("C43", "partial", "dns_inside_partial dns_violated",
  "dn_expand is a parameter that is assumed to accept only non-empty names inside of the message; strptime is a parameter. Violated by a reply of 512 bytes whose text record ends with the buffer: the terminating NUL is written behind it. Proved for all other replies, including termination.")
c("C37", "partial", "lifetime_partial lifetime_no_write lifetime_violated lifetime_violated_again",
  "Proved for all histories in which the caller holds a reference to every network in the tree whenever it writes; there the reference counts are also exact afterwards (no leak). Violated otherwise: loc_network_tree_merge_step reads the prefix of a network that the tree has just released (network-tree.c:434).")
c("C47", "proved", "update_verified",
  "LZMA and HTTP are parameters: a mirror's reply is any byte sequence that ends normally, with a decompression error, with an HTTP error or with any other exception.")
c("C48", "partial", "update_newer_partial update_violated_older",
  "Proved when a version was announced by DNS. Without an announcement any signed database, also an older one, replaces the local one.")
c("C49", "partial", "update_mirror_partial update_outdated_fatal update_violated_mirror update_violated_damaged",
  "Proved when all mirrors before the working one answered with HTTP errors. Violated otherwise: the temporary file is not emptied between mirrors (truncate() cuts at the current position), so an outdated or corrupt reply spoils all later ones; connection errors are not caught; a damaged local database cannot be replaced.")
c("C50", "partial", "export_exact_partial export_sound export_outputs export_special_empty export_violated",
  "Proved for ordinary countries and ASes: the files of an export that ends without an exception are right for all databases of C16 (export_sound); it does end so for the databases covered by C28; for the text formats of the output files see C53. Violated for the special codes A1, A2, A3, XD: they are removed from the filter, so only networks of other countries or ASes on the list are written.")
c("C51", "proved", "network_list_memory as_list_memory country_list_memory pop_first_diverges",
  "Allocation succeeds. Beyond 2^32 elements the loops with unsigned int counters do not end (pop_first_diverges).")
c("C52", "partial", "names_partial names_violated_null names_violated_self",
  "Violated by loc_country_set_name(country, NULL) for a country with a name (the object keeps the pointer to the freed string) and by set_name(o, get_name(o)) for both kinds of objects (the string is read after it was freed). Proved for all other sequences; strdup succeeds.")
c("C53", "partial", "list_format nftables_format ipset_format_partial ipset_outputs_partial export_print_partial ipset_violated_file ipset_violated_append ipset_violated_large xt_geoip_raises",
  "Proved for list and nftables on any kind of file. For ipset proved for location export (every output has its own file or buffer) and on pipes, for outputs of at most 1048576 networks of the family. Violated for ipset when standard output is a file: the header is rewritten at the start of the file, over earlier outputs, or (>>) its flush command comes last; more than 1048576 networks cannot be loaded. The format xt_geoip always raises an exception. The floating-point logarithm of the hash size is a parameter; ipset restore and nft are specified in Spec/Formats.lean.")
c("C54", "partial", "py_get_as_partial py_get_as_violated py_get_as_negative py_get_country_refuses py_get_country_partial py_get_country_sound py_lookup_partial py_lookup_violated",
  "get_country is proved under the conditions of C24, with ValueError for every invalid code. Violated by get_as: numbers from 2^31 on raise OverflowError, negative ones are taken modulo 2^32. Violated by lookup: texts that are no address raise OSError, because a break is missing.")
c("C55", "partial", "cli_lookup_partial cli_lookup_violated cli_lookup_overflow cli_get_as_partial cli_get_as_violated",
  "Proved for all lists of addresses (not stored as networks of their own, C18) under the conditions of C24 and for AS numbers below 2^31. Violated: a text that is no address ends location lookup with an uncaught OSError, an AS number from 2^31 on with an uncaught OverflowError; the same for location get-as.  For the layout see C91.")
c("C56", "partial", "script_as script_country_partial script_country_violated script_country_invalid as_text_partial as_text_violated",
  "Violated: in every written database both bindings crash when asked for a valid country code that was not added. The text of ASes with numbers from 2^31 on is negative.")
c("C57", "partial", "py_network py_add_network_partial py_add_network_violated py_country_partial py_country_violated py_set_country_code py_set_asn py_add_as_partial py_add_as_violated py_exclude_partial py_exclude_violated py_as_name_violated",
  "Network() and the setters are proved. Violated: Writer.add_network, Writer.add_country and Country() raise SystemError for invalid texts, Writer.add_as refuses numbers from 2^31 on, Network.exclude crashes on odd blocks, and so does reading the name of an AS without name.")
c("C58", "partial", "import_lookup_partial import_lookup_unknown import_lookup_violated",
  "What is found is what the tables say. Not every address of the tables is found (C16; import_lookup_violated). SQL is modelled by the meaning of the statements; choices among rows of equal rank are a parameter. One output file; IPv6 networks in the tables do not contain IPv4-mapped addresses.")
c("C59", "partial", "import_succeeds_partial import_succeeds_violated import_big_asn import_big_as import_bad_country",
  "Proved for AS numbers below 2^31. Violated above: the column autnum of the temporary table is a 32 bit signed integer and Writer.add_as takes an int. One invalid country makes the whole import fail.")
c("C60", "proved", "import_ases import_countries import_metadata",
  "The rows of countries come in alphabetical order (ORDER BY country_code) with continents, so the conditions of C24 are met.")
c("C61", "proved", "blocks_exact file_read file_meaning_unique",
  "For the white space of ASCII; decoding is not modelled.")
c("C62", "partial", "dump_reads_back_partial dump_violated_name dump_violated_vendor",
  "Names of ASes with # or newline or white space on either end, and newlines in vendor or license, are not escaped (violated); databases that an enumeration does not return completely (C18) are excluded.")
c("C63", "proved", "overrides_exact overrides_success",
  "Geofeeds are not modelled; forms of networks that only Python accepts (netmasks, scope ids) and signs in front of numbers are not accepted by the model.")
c("C64", "partial", "dump_as_overrides_partial",
  "Under the conditions of C62. Networks with a prefix of length zero are skipped by update-overrides.")
c("C65", "proved", "update_cron_recent update_cron_other",
  "Time is a number of seconds; delta is the period. Found by a wrong program that no theorem noticed.")
c("C66", "partial", "copied_countries_partial copied_countries_first copied_entries copied_countries_violated",
  "Violated by an entry without a country that is of the smallest prefix length of its source and lies inside of an entry with a country of another source. Proved if there are no such entries. SQL is modelled by the meaning of the statements.")
c("C67", "partial", "statistics_line statistics_exact_partial statistics_violated statistics_zero",
  "Violated for IPv4 lines whose number of addresses is not a power of two or does not divide the first address; a number that is not positive ends the import of the source. Proved for the other lines.")
c("C68", "proved", "object_networks range_networks object_range object_faults",
  "is_global of Python's networks is a parameter. IPv6 ranges that reach into the IPv4-mapped addresses are excluded. Faulty objects raise exceptions (object_faults, C70).")
c("C69", "proved", "source_names parts_exist",
  "For sources that are processed without exception; the fields of lines of the list of ARIN are given (the CSV reader is not modelled).")
c("C70", "partial", "update_whole update_done source_processed source_entries source_countries_partial source_countries_violated update_faulty",
  "Atomicity, success of sources without faulty parts and what the entries are is proved. The countries of addresses are those of C66, with its exception (violated). Downloads and geofeeds are not modelled. One faulty object keeps the whole source out (update_faulty).")
c("C71", "partial", "exclude_lifetime exclude_list_lifetime enumeration_lifetime enumeration_no_leak enumeration_start enumeration_objects enumeration_kept bogon_lifetime_partial bogons_never_released bogons_violated_leak",
  "Proved for exclusions and for enumerations, flattened or not. Bogon enumerations use no released network, but every bogon leaks (violated). Memory never runs out. Other faults (a NULL pointer in flattened enumerations, C28) end an execution.")
c("C72", "partial", "list_by_as_partial list_by_as_number list_by_as_refused list_by_as_violated_number list_by_as_violated_nested list_by_country_partial list_by_country_violated_code list_by_flags_partial list_by_flags_none list_bogons_partial list_bogons_ipset_partial list_bogons_violated_ipset search_as_partial list_countries_partial list_countries_violated list_format_refused list_failure export_objects export_arguments_partial export_arguments_violated",
  "Proved for databases that can be enumerated (C16, C19) and, for bogons, under the conditions of C29; in the format ipset if no bogon is printed twice. Violated: bogons can be printed twice, and then ipset refuses the list; listings also cover addresses of networks inside that belong elsewhere; numbers beyond 32 bits list another AS; invalid country codes give exit code 1; a country without continent ends list-countries --show-continent; export with only invalid arguments exports everything.")
c("C73", "partial", "objects_never_stale objects_exact_partial objects_released_partial objects_local objects_string_violated objects_search_violated objects_descriptor_violated objects_memory_violated python_none_violated python_init_violated",
  "Never using what was released, and keeping what is reachable, is proved for all failures. Releasing everything else, and never following NULL, is proved except for the calls and failures in the counterexamples: setting the string of an enumerator twice, failing searches from Python, dup returning 0, fdopen failing, and running out of memory in three places. Networks on lists and in trees: see C37, C71.")
c("C74", "partial", "python_eq python_order python_order_total python_sorted python_hash python_set_partial python_ne python_ne_violated python_le_violated python_hash_violated python_unmade_violated python_as_partial python_as_violated python_as_number_partial python_as_number_violated lua_eq_partial lua_eq_violated lua_eq_violated_types",
  "Equality, <, > and sorting are proved for Python. Violated: != compares identities, so equal objects are also unequal; <= and >= raise; networks cannot be hashed; AS(n) refuses numbers from 2147483648 and takes negative ones; in Lua only countries can be compared.")
c("C75", "partial", "announce_lines announcements_exact_partial announcements_purge announcements_refused announcements_empty_number announcements_violated_second announcements_violated_protocol announcements_violated_error announcements_violated_closed announcements_violated_empty announcements_violated_around",
  "Proved for replies with one route per network and protocols whose names do not begin with AS. Violated: a second route to a network or such a protocol makes the whole import fail; an error reply, a closed connection and an empty line make it wait for ever; networks around special-purpose networks are kept. The dump of bgpdump is not modelled.")
c("C76", "partial", "script_lookup_partial script_lookup_refused perl_flag_refused lua_properties lua_network_new lua_subnets_partial lua_reverse_pointer perl_countries perl_countries_all lua_networks_partial lua_networks_all script_metadata script_verify script_lookup_violated perl_lookup_violated perl_verify_violated",
  "Proved for addresses that are not stored as networks of their own (C18) and, in Perl, networks with a country. Violated: Perl gets the empty string instead of undef for networks without a country; text behind a NUL is ignored; verify in Perl dies instead of returning false.")
c("C77", "partial", "feeds_exact_partial feeds_unique feeds_violated_page feeds_violated_entry feeds_violated_twice",
  "Proved: exactly which rows are there afterwards, and the exit code. Violated: a page that is no feed empties a list of Spamhaus with exit code 0; one AWS entry that is no network (a misspelt exception) or a network listed twice spoils the whole feed.")
c("C78", "partial", "geofeeds_exact_partial geofeeds_file geofeeds_clean geofeeds_used geofeeds_violated demo_geofeeds demo_fatal",
  "Proved for every order of the downloads: what is registered, fetched, recorded, kept and used, and when the command fails. Violated: one server that closes the connection, one damaged file or one line with a NUL ends the whole command, so that other geofeeds are not fetched and old data is not forgotten.")
c("C79", "partial", "countries_exact_partial countries_violated",
  "Proved: which lines are taken, and that a failure changes nothing. Violated: every line of three words is taken for a country (also an indented comment), whereupon write fails.")
c("C80", "partial", "writing_exact_partial writing_blind writing_short writing_hangs writing_readonly writing_headerless demo_writing",
  "Proved: on every stream that takes all bytes, the result and the file are those of the other theorems about writing. Violated: without keys a failing fwrite is never noticed (success with a damaged file, even if the whole header is missing), and on a stream that keeps refusing bytes the function never returns; proved exactly when.")
c("C81", "partial", "level_exact_partial level_unknown messages_exact level_violated",
  "Proved for all numbers below 2^31, names, and all sequences of calls. Violated: values that are unknown or empty turn errors off, and loc_set_log_fn sets nothing.")
c("C82", "proved", "dump_safe dump_exact",
  "Any data below 4 GiB for the bounds and the number of lines; up to 64 KiB, the largest buffer that is dumped, for the contents of each line. From 4 GiB on the 32 bit counter would never reach the end, which no caller can cause.")
c("C83", "partial", "verify_reads verify_reads_only_valid verify_reads_ends_partial verify_disk verify_endless_violated open_reads_partial open_descriptor_violated",
  "Proved for all streams: every answer is the one for the contents or an error after a read error, and 0 needs a valid signature of the whole contents; it ends if there are finitely many errors. Violated: if some part behind the header stays unreadable, verification never ends; if standard input is closed no database can be opened.")
c("C84", "partial", "cleanup_joins_partial cleanup_joins_flat cleanup_unjoined_violated cleanup_unjoined_violated_v6 cleanup_unjoined_violated_freed",
  "Proved: two halves are left only if their union had been added itself; nothing is left to join if no network added lies inside another. Violated in three ways: the union was taken when the halves were looked at and was joined later, an IPv4 network lies between IPv6 halves around the IPv4 range, or the freed network read again (see C37) clears the list.")
c("C85", "partial", "write_again_partial write_again_flat cleanup_again_partial cleanup_fixed_joined write_again_violated_name write_again_violated_join",
  "Proved for writers whose ASes all have names and whose halves the first write joined (always so if no network lies inside another): the second write gives the same bytes and leaves the writer as it is. Violated in two ways: empty strings are stored again by every write, and the second clean-up may join halves the first one left (see C84). IPv6 networks with IPv4 addresses in them are excluded.")
c("C86", "partial", "retrieve_exact_partial retrieve_chunked retrieve_part retrieve_compressed retrieve_violated_cut retrieve_violated_empty retrieve_violated_silent retrieve_geofeed_partial retrieve_geofeed_silent",
  "Proved for connections that are not closed before the end of the document, and for all chunked replies. Violated: if the connection is closed early in a document of known length, the part that has arrived is taken for the document (an empty one if nothing has arrived, even of compressed documents), so that a geofeed is emptied and noted as updated; without a timeout a silent server is waited for without end. What http.client does is modelled after CPython, gzip is a parameter.")
c("C87", "partial", "https_request_partial http_request_iff https_plain_violated https_detour_violated http_request_violated demo_proxies",
  "Proved for https URLs if no proxy is set for http, and for http URLs exactly if no proxy is set for https. Violated: with both proxies set, requests for https URLs go out as plain http; with only one, requests of the other kind go to it as well. What urllib does is modelled after CPython; no_proxy and names of users are left out.")
c("C88", "proved", "geofeed_tasks geofeed_connection_kept geofeed_tasks_end",
  "All executions, for any number of geofeeds. At most 34 of the 512 connections are in use. What asyncio's event loop, Semaphore and TaskGroup do is modelled after CPython 3.11, the pool after psycopg_pool. If a task fails the others are cancelled (see C78).")
c("C89", "proved", "date_text date_read date_whole date_injective reply_read date_discovered",
  "The calendar of the specification counts day by day. gmtime, strftime, strptime and timegm are modelled after glibc in the C locale. From the year 10000 on dates are written that are not read; the day of the week and impossible days such as 31 February are not checked when a date is read (examples beside the theorems). Replies that fill the buffer are excluded, see C43.")
c("C90", "proved", "verify_exit version_printed version_late",
  "Errors reported by OpenSSL are excluded, see C27; files below 4200 bytes are covered by C21. The messages on standard error are not modelled. A file that says it was made after the year 2147485547 makes `location version` fail (version_late).")
c("C91", "partial", "lookup_text_partial lookup_text_read shows_plain lookup_text_violated get_as_text_partial",
  "Proved: the text under the conditions of C55; it can be read back if no name has a newline in it. Violated: a name with a newline can look like another line, for instance like a flag; the library and the bindings accept such names (the importer does not make them). Texts without a translation; names are bytes.")
c("C92", "partial", "lookup_local_partial lookup_local_found lookup_local_violated",
  "Proved: if the address is found in both databases, the answers are the same; where lookups are longest-prefix matches (C14) it is found in both or in none. Violated: 10.0.0.1 is found in a database with 10.0.0.0/8, but not any more when 10.1.0.0/16 is added.")
c("C93", "partial", "lookup_listed lookup_flattened lookup_bogon_partial lookup_flattened_violated lookup_bogon_violated",
  "Proved: for every address which is found, agreement with the enumeration that ends without an error and with the flattened one; with the bogons if these are exact (C29). Violated: 10.0.0.1 is in the flattened enumeration of a database with 10.0.0.0/8 and 10.1.0.0/16, but is not found (C14); and it is both found in DE and in a bogon if only 10.0.0.0/8 is stored (C29).")
c("C94", "partial", "export_apart export_lookup export_lookup_violated",
  "Proved for all exports of databases that can be enumerated (C16, C19) that end without an exception; for special codes only that addresses on the list have the flag. Violated for special codes: an address with the flag of anonymous proxies is not on the list for A1 (see C50).")
c("C95", "proved", "keys_only_signatures keys_same_lookups keys_same_answers",
  "Both writes end successfully; the bytes 68 to 4167 hold the signatures and their lengths. Bytes that the code leaves uninitialised in the records and the clock are the same for both writers. Files are read back below 2^32 bytes.")
c("C96", "partial", "copy_same_partial copy_allowed copy_same_violated",
  "Proved if the enumeration ends without an error (C16), no IPv6 network with IPv4 addresses in it was added, all halves were joined by the first write (C84), and nothing is lost when the networks are stored (flags of more than 16 bits, half a country code). Violated otherwise: halves that the first write left are joined in the copy, so that lookups return a larger network (of the same country, AS and flags).")
c("C97", "proved", "size_bound size_total size_practical",
  "Each earlier write may add strings again (an empty string for every AS without a name, former names of renamed ASes). The numbers at the end are for histories without an earlier write. IPv4 prefixes count 96 bits more than written. A file written over keeps its length if it was longer. Beyond 4 GiB offsets are cut off without an error (writer.c:293-308, 397, 498, 527), see C98.")
c("C98", "partial", "large_refused_partial large_refused_violated",
  "Proved as long as what the calls add (C97) stays below 4 GiB. Violated beyond: after adding 2^29 ASes the write succeeds, the length of the section is stored as 0 and no AS is found.")
c("C99", "proved", "as_search_steps country_search_steps search_steps_any",
  "For any database value, opened from any bytes. The rounds are counted by the fuel of the model's loop: with k+1 rounds the result is that of the whole search and never the outcome for a loop that did not end.")
c("C100", "proved", "lookup_depends",
  "The answer includes the outcomes for reads outside of the file and outside of the address (C20, C21).")
