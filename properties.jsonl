{"id": "C01", "title": "Network comparison is the numeric order on (first address, prefix)", "statement": "loc_network_cmp returns a negative number, zero or a positive number exactly as the pair (first address as a 128-bit big-endian number, prefix length) of the first network is smaller than, equal to or larger than that of the second; it is therefore a total order, and zero means same block.", "quantifier": "all pairs of networks", "why_tests_cant": "2^128 addresses times 129 prefixes, squared; sorting and binary search need totality and transitivity on all of them.", "anchors": ["src/network.c:loc_network_cmp", "src/libloc/address.h:loc_address_cmp"]}
{"id": "C02", "title": "Creating a network canonicalises it to its CIDR block", "statement": "loc_network_new succeeds exactly when the prefix is at most 128 for an IPv6 address and at most 32 for an IPv4 address. The resulting network reports the family of the given address, the given prefix, the numerically smallest address sharing the first `prefix` bits as first address and the largest one as last address.", "quantifier": "all addresses and all prefixes", "why_tests_cant": "The mask is built byte-wise; each of 2^128 x 129 combinations has its own byte boundary and carry situation.", "anchors": ["src/network.c:loc_network_new", "src/libloc/address.h:loc_prefix_to_bitmask,loc_address_and,loc_address_or,loc_address_valid_prefix"]}
{"id": "C03", "title": "Address membership is prefix agreement", "statement": "loc_network_matches_address(n, a) is true exactly when a agrees with the first address of n on the first (raw) prefix bits, i.e. when a lies between first and last address.", "quantifier": "all networks built by the library and all addresses", "why_tests_cant": "The domain is 2^128 x 2^128.", "anchors": ["src/network.c:loc_network_matches_address"]}
{"id": "C04", "title": "Subnet and overlap tests are set inclusion and set intersection", "statement": "loc_network_is_subnet(a, b) is true exactly when every address of b is in a; loc_network_overlaps(a, b) is true exactly when some address is in both. Overlap is symmetric, inclusion is a partial order, and two overlapping networks are always nested.", "quantifier": "all pairs of networks built by the library", "why_tests_cant": "Quantifies over pairs of networks and all their addresses.", "anchors": ["src/network.c:loc_network_is_subnet,loc_network_overlaps"]}
{"id": "C05", "title": "Splitting a network yields its two exact halves", "statement": "loc_network_subnets on any network that is not a single host returns two networks of one bit longer prefix which are disjoint, whose union is exactly the input network, in ascending order, both carrying the country code, ASN and flags of the input; on a host network it fails. (The code also fails on ::/79 and ::fffe:0:0/95, one half of which looks IPv4-mapped: see the theorems.)", "quantifier": "all networks", "why_tests_cant": "Half boundary arithmetic needs carries over up to 16 octets.", "anchors": ["src/network.c:loc_network_subnets", "src/libloc/address.h:loc_address_increment"]}
{"id": "C06", "title": "Excluding a subnet is exact set difference", "statement": "When other is a strict subnet of self, loc_network_exclude(self, other) returns pairwise disjoint networks, in ascending order, that cover exactly the addresses of self that are not in other, each carrying the properties of self.", "quantifier": "all pairs of networks with other strictly inside self", "why_tests_cant": "Recursion depth up to 128; result size varies with both prefixes.", "anchors": ["src/network.c:loc_network_exclude,__loc_network_exclude"]}
{"id": "C07", "title": "Excluding a list of subnets is exact set difference", "statement": "loc_network_exclude_list(n, list) for a list holding at least one strict subnet of n returns pairwise disjoint networks, in ascending order, covering exactly the addresses of n that are in no listed network, and it terminates.", "quantifier": "all networks and all (sorted) network lists", "why_tests_cant": "Arbitrary list lengths; the work list grows while it is consumed and the scan start is advanced by an optimisation that is only valid by a global ordering argument.", "anchors": ["src/network.c:loc_network_exclude_list"]}
{"id": "C08", "title": "A network list is a sorted set under every operation sequence", "statement": "After any sequence of push, pop, pop_first, remove, merge and clear, the list is strictly ascending in network order, contains exactly the networks a mathematical set would contain (first inserted object wins for equal blocks), contains() answers set membership, pop/pop_first return the largest/smallest element.", "quantifier": "all operation histories of any length", "why_tests_cant": "Correctness of the binary search relies on an invariant over all histories.", "anchors": ["src/network-list.c:loc_network_list_find,loc_network_list_push,loc_network_list_pop,loc_network_list_pop_first,loc_network_list_remove,loc_network_list_contains,loc_network_list_merge"]}
{"id": "C09", "title": "The writer stores each distinct network exactly once and refuses duplicates", "statement": "Adding a network that was not added before succeeds and makes it part of the database; adding a block that is already there returns -EBUSY and changes nothing, whatever was added before.", "quantifier": "all histories of network additions", "why_tests_cant": "Histories are unbounded and depend on shared trie paths.", "anchors": ["src/network-tree.c:loc_network_tree_add_network,loc_network_tree_get_path", "src/writer.c:loc_writer_add_network"]}
{"id": "C10", "title": "Tree clean-up never changes what an address resolves to", "statement": "The de-duplication, merging and pruning performed before writing leaves, for every address, the properties (country, ASN, flags) of the most specific enclosing network unchanged, and an address without enclosing network stays without.", "quantifier": "all sets of networks, all addresses", "why_tests_cant": "Depends on the full nesting structure of an unbounded set of networks and in-place mutation during traversal.", "anchors": ["src/network-tree.c:loc_network_tree_cleanup,loc_network_tree_dedup,loc_network_tree_merge,loc_network_tree_delete_nodes"]}
{"id": "C11", "title": "After clean-up no network repeats the properties of its closest enclosing network", "statement": "In the written tree no network has the same country, ASN and flags as the closest enclosing network of the same family.", "quantifier": "all sets of networks", "why_tests_cant": "Quantifies over all nesting structures.", "anchors": ["src/network-tree.c:loc_network_tree_dedup_step"]}
{"id": "C12", "title": "Merging only joins two equal-property halves into their exact union", "statement": "loc_network_merge(a, b) returns a network exactly when a and b are the lower and upper half of one block with equal properties; the result is that block with these properties.", "quantifier": "all pairs of networks", "why_tests_cant": "Pairs over 2^128 x 129.", "anchors": ["src/network.c:loc_network_merge", "src/libloc/address.h:loc_address_bit_length"]}
{"id": "C13", "title": "The written trie encodes exactly the cleaned tree", "statement": "Walking the node section of the written file from the root along the bits of an address visits the same branch structure and finds the same networks as the in-memory tree; every network of the tree is stored exactly once.", "quantifier": "all trees", "why_tests_cant": "Breadth-first numbering must be consistent for trees of any shape and size.", "anchors": ["src/writer.c:loc_database_write_networks", "src/database.c:__loc_database_lookup"]}
{"id": "C14", "title": "Longest-prefix lookup", "statement": "For every database written by the library and every address, loc_database_lookup returns the most specific stored network containing the address, or nothing when none does.", "quantifier": "all writer histories and all addresses", "why_tests_cant": "Every nesting structure and every address; the failing region depends on siblings below the matching network.", "anchors": ["src/database.c:__loc_database_lookup,loc_database_lookup"]}
{"id": "C15", "title": "Lookup never returns a wrong network", "statement": "Whenever loc_database_lookup on a written database returns a network, that network contains the address, is a stored network with the stored country, ASN and flags, and no more specific stored network contains the address.", "quantifier": "all writer histories and all addresses", "why_tests_cant": "As C14.", "anchors": ["src/database.c:__loc_database_lookup,__loc_database_lookup_handle_leaf,loc_database_fetch_network"]}
{"id": "C16", "title": "Network enumeration is complete, duplicate free and ascending", "statement": "Draining a network enumerator without filters returns every stored network exactly once, with its stored properties, in ascending network order, then ends.", "quantifier": "all databases written by the library", "why_tests_cant": "All tree shapes; the address is reconstructed from partially stale bits during the traversal.", "anchors": ["src/database.c:__loc_database_enumerator_next_network,loc_database_enumerator_stack_push_node"]}
{"id": "C17", "title": "Enumeration filters mean what they say", "statement": "A filtered network enumeration returns exactly the networks whose family matches (if a family is set) and which match one of the configured countries, ASNs or flags (if any is configured).", "quantifier": "all databases, all filter settings", "why_tests_cant": "Cross product of unbounded data and filter sets.", "anchors": ["src/database.c:loc_database_enumerator_match_network"]}
{"id": "C18", "title": "Enumerating terminates on every file", "statement": "Draining an enumerator finishes after finitely many steps on every byte sequence accepted as a database, including node graphs with cycles and shared nodes, and every node is expanded at most once.", "quantifier": "all byte sequences", "why_tests_cant": "Adversarial files; non-termination cannot be tested.", "anchors": ["src/database.c:__loc_database_enumerator_next_network"]}
{"id": "C19", "title": "The traversal stack of the enumerator never overflows", "statement": "Enumerating a database never writes outside the 256-entry traversal stack.", "quantifier": "all databases", "why_tests_cant": "Needs the worst-case shape of the trie.", "anchors": ["src/database.c:loc_database_enumerator_stack_push_node,MAX_STACK_DEPTH"]}
{"id": "C20", "title": "Lookup accesses only the 16 address bytes", "statement": "loc_database_lookup never reads or writes outside the 16 bytes of the looked-up address and of its internal network address.", "quantifier": "all databases and all addresses", "why_tests_cant": "Out-of-bounds by one byte is usually silent.", "anchors": ["src/database.c:__loc_database_lookup", "src/libloc/address.h:loc_address_get_bit,loc_address_set_bit"]}
{"id": "C21", "title": "Readers never access bytes outside the file", "statement": "Opening and reading any byte sequence either fails or reads only bytes inside the mapped file.", "quantifier": "all byte sequences", "why_tests_cant": "Adversarial and truncated files, unsigned wrap-around in the bounds check.", "anchors": ["src/database.c:__loc_database_check_boundaries,loc_database_object,loc_database_read_header_v1"]}
{"id": "C22", "title": "ASes round-trip through the database", "statement": "For every sequence of added ASes, loc_database_get_as(number) on the written database finds an AS exactly when the number was added, and returns the name given to its first addition (the empty string if none was given).", "quantifier": "all sequences of added ASes, all numbers", "why_tests_cant": "Binary search over sorted sections of any size, string pool offsets.", "anchors": ["src/writer.c:loc_database_write_as_section", "src/database.c:loc_database_get_as", "src/as-list.c:loc_as_list_append,loc_as_list_sort"]}
{"id": "C23", "title": "AS enumeration returns all ASes in ascending order", "statement": "Draining an AS enumerator without search string returns each distinct added AS exactly once in ascending number order.", "quantifier": "all sequences of added ASes", "why_tests_cant": "Unbounded sequences.", "anchors": ["src/database.c:loc_database_enumerator_next_as", "src/as-list.c:loc_as_list_sort"]}
{"id": "C24", "title": "Countries round-trip through the database", "statement": "For every sequence of added countries, loc_database_get_country(code) on the written database finds a country exactly when it was added and returns its name (the empty string if none was given) and continent code.", "quantifier": "all sequences of added countries, all codes", "why_tests_cant": "Depends on the order of additions and on left-over data between records.", "anchors": ["src/writer.c:loc_database_write_countries", "src/database.c:loc_database_get_country", "src/country.c:loc_country_to_database_v1"]}
{"id": "C25", "title": "String pool offsets are stable and faithful", "statement": "For every history of loc_stringpool_add calls, the offset returned for a string yields that string from loc_stringpool_get now and after any further additions; adding a non-empty string again returns the same offset; different strings get different offsets.", "quantifier": "all histories of additions", "why_tests_cant": "Histories and string contents are unbounded.", "anchors": ["src/stringpool.c:loc_stringpool_add,loc_stringpool_find,loc_stringpool_append,loc_stringpool_get"]}
{"id": "C26", "title": "Metadata round-trips", "statement": "Vendor, description, license and creation time read from the written database equal what was last set on the writer (empty if never set).", "quantifier": "all writer histories, all strings", "why_tests_cant": "Interaction with arbitrary pool contents.", "anchors": ["src/writer.c:loc_writer_set_vendor,loc_writer_write", "src/database.c:loc_database_get_vendor,loc_database_read_header_v1"]}
{"id": "C27", "title": "Signature verification covers the whole file except the signatures", "statement": "A database written with a private key is accepted by loc_database_verify with the matching public key; the verified message determines every byte of the file outside the signature fields, so changing any such byte changes the verified message; a database without signatures is never accepted; it is accepted only if one of its signatures verifies.", "quantifier": "all writers, all files, all keys, any signature scheme", "why_tests_cant": "All files and single-byte modifications.", "anchors": ["src/writer.c:loc_writer_create_signature,loc_writer_write", "src/database.c:loc_database_verify"]}
{"id": "C28", "title": "Flattened enumeration is a partition", "statement": "The networks returned by a flattened enumeration are pairwise disjoint and ascending; an address is covered exactly when its most specific stored network matches the filter, and the covering network has exactly the properties of that most specific network.", "quantifier": "all databases, all filters, all addresses", "why_tests_cant": "Interleaves traversal, exclusion and re-queuing over unbounded nesting.", "anchors": ["src/database.c:__loc_database_enumerator_next_network_flattened", "src/network.c:loc_network_exclude_list"]}
{"id": "C29", "title": "Bogon enumeration returns exactly the gaps", "statement": "Draining a bogon enumerator returns networks that together cover exactly the addresses not covered by any stored network with a country code.", "quantifier": "all databases", "why_tests_cant": "All gap shapes.", "anchors": ["src/database.c:__loc_database_enumerator_next_bogon", "src/network-list.c:loc_network_list_summarize"]}
{"id": "C30", "title": "Range summarising covers exactly the range", "statement": "loc_network_list_summarize(first, last) pushes networks whose union is exactly the addresses from first to last.", "quantifier": "all address pairs of one family with first <= last", "why_tests_cant": "2^256 pairs.", "anchors": ["src/network-list.c:loc_network_list_summarize", "src/libloc/address.h:loc_address_common_bits"]}
{"id": "C31", "title": "Reverse pointers", "statement": "loc_network_reverse_pointer returns, for IPv6 networks on a nibble boundary and IPv4 networks on an octet boundary, the hex nibbles (decimal octets) of the network part in reverse order separated by dots, preceded by an asterisk label unless the network is a host, followed by the suffix; other prefixes yield nothing. Different networks of a family have different reverse pointers.", "quantifier": "all networks and suffixes", "why_tests_cant": "All addresses and boundaries.", "anchors": ["src/network.c:loc_network_reverse_pointer", "src/libloc/address.h:loc_address_get_nibble,loc_address_get_octet"]}
{"id": "C32", "title": "Formatted address strings stay valid for five further calls", "statement": "The string returned by loc_address_str (and the format_first/last_address functions) is unchanged by the next five formatting calls, for any addresses, starting from any history; the sixth call overwrites it.", "quantifier": "all histories of formatting calls", "why_tests_cant": "Histories are unbounded.", "anchors": ["src/address.c:loc_address_str"]}
{"id": "C33", "title": "Parsing checks the prefix and defaults to a host", "statement": "loc_address_parse accepts exactly strings whose part before the first slash is a valid IPv6 or IPv4 address; without slash the prefix is the full length; with a slash followed by a decimal number the prefix is that number and values above the family maximum are rejected.", "quantifier": "all strings", "why_tests_cant": "All strings and overflowing numbers.", "anchors": ["src/address.c:loc_address_parse"]}
{"id": "C34", "title": "Network strings round-trip", "statement": "Parsing the string of any network yields the same block again.", "quantifier": "all networks", "why_tests_cant": "All networks.", "anchors": ["src/network.c:loc_network_str,loc_network_new_from_string", "src/address.c:loc_address_str,loc_address_parse"]}
{"id": "C35", "title": "Country codes are validated on every path", "statement": "A network's country code is at all times empty or two upper case letters not starting with X, whatever sequence of setter calls was made; matching against a valid code is equality, matching against a special code (A1, A2, A3, XD) tests the corresponding flag.", "quantifier": "all call histories, all strings", "why_tests_cant": "Histories and strings are unbounded.", "anchors": ["src/network.c:loc_network_set_country_code,loc_network_matches_country_code", "src/country.c:loc_country_code_is_valid,loc_country_special_code_to_flag"]}
{"id": "C36", "title": "Network properties survive the file format", "statement": "Writing a network record and reading it back yields the same country code, ASN and flags (flags below 2^16) at every address and prefix.", "quantifier": "all networks", "why_tests_cant": "All 32-bit ASNs, flags and codes.", "anchors": ["src/network.c:loc_network_to_database_v1,loc_network_new_from_database_v1"]}
{"id": "C37", "title": "Writing never uses a released network", "statement": "Writing a database never accesses a network object after its last reference was dropped, whether or not the caller kept references to the networks it added.", "quantifier": "all sets of networks and reference patterns", "why_tests_cant": "Use after free is silent and allocator dependent.", "anchors": ["src/network-tree.c:loc_network_tree_merge_step,loc_network_tree_delete_network"]}
{"id": "C38", "title": "The written file does not depend on the order of additions", "statement": "Adding the same distinct networks and the same distinct ASes in any order produces byte-identical database files (for the same countries, metadata and time).", "quantifier": "all permutations of all addition sequences", "why_tests_cant": "Permutations of unbounded sequences.", "anchors": ["src/writer.c:loc_writer_write", "src/network-tree.c", "src/as-list.c"]}
{"id": "C39", "title": "Address arithmetic is exact and saturating", "statement": "Incrementing/decrementing an address adds/subtracts one within its family and leaves the last/first address of the family unchanged; incrementing then decrementing restores; subtraction gives the numeric difference modulo the family size.", "quantifier": "all addresses", "why_tests_cant": "Carry chains over 16 octets; loop bounds are re-evaluated on the mutated address.", "anchors": ["src/libloc/address.h:loc_address_increment,loc_address_decrement,loc_address_sub"]}
{"id": "C40", "title": "File layout is well formed", "statement": "In every written file all sections start on page boundaries after the header, do not overlap, lie inside the file, and their lengths are multiples of the record size.", "quantifier": "all writers", "why_tests_cant": "All section sizes.", "anchors": ["src/writer.c:loc_writer_write,align_page_boundary"]}
{"id": "C41", "title": "Unknown formats are rejected", "statement": "loc_database_new fails on every file that does not start with the magic and a supported version, and accepts every file produced by loc_writer_write; loc_writer_write refuses unknown versions.", "quantifier": "all byte sequences, all writers, all version numbers", "why_tests_cant": "All byte sequences.", "anchors": ["src/database.c:loc_database_check_magic,loc_database_new", "src/writer.c:loc_writer_write"]}
{"id": "C42", "title": "Address bit helpers agree with the number", "statement": "Reading bit i gives the i-th most significant bit; setting bit i changes only this bit; the common-bits helper returns the length of the longest common prefix within the family; the bit-length helper returns the position of the last one bit.", "quantifier": "all addresses, all bit positions", "why_tests_cant": "2^128 addresses; undefined compiler builtins at zero octets.", "anchors": ["src/libloc/address.h:loc_address_get_bit,loc_address_set_bit,loc_address_common_bits,loc_address_bit_length"]}
{"id": "C43", "title": "DNS replies are parsed inside the reply buffer", "statement": "loc_discover_latest_version accesses only bytes inside its 512-byte answer buffer for every reply.", "quantifier": "all DNS replies", "why_tests_cant": "Adversarial replies.", "anchors": ["src/resolv.c:loc_discover_latest_version"]}
{"id": "C44", "title": "A write that succeeds has signed with every key", "statement": "If loc_writer_write returns success, the file carries, for each private key the writer was given, a signature that the signing primitive produced for the signed message; if signing fails, the write fails.", "quantifier": "all writer histories, all keys, all outcomes of the signing primitive", "why_tests_cant": "Signing failures cannot be provoked through the API.", "anchors": ["src/writer.c:loc_writer_create_signature,loc_writer_write"]}
{"id": "C45", "title": "Country enumeration is complete and duplicate free", "statement": "Draining a country enumerator returns each added country exactly once with its name and continent code, in the order in which the countries were first added, and then starts again.", "quantifier": "all writer histories", "why_tests_cant": "Unbounded histories; the records refer to a string pool shared with other objects.", "anchors": ["src/database.c:loc_database_enumerator_next_country,loc_database_fetch_country", "src/writer.c:loc_writer_add_country"]}
{"id": "C46", "title": "Traversing any file stays inside the library's own objects", "statement": "Looking up an address and enumerating networks in any byte sequence accepted as a database never read or write outside of the 16 octets of the address, the traversal stack and the table of visited nodes.", "quantifier": "all byte sequences, all addresses, all filters", "why_tests_cant": "Adversarial node graphs: cycles, shared nodes, chains deeper than 128 nodes, no nodes.", "anchors": ["src/database.c:__loc_database_lookup,__loc_database_enumerator_next_network,loc_database_enumerator_stack_push_node", "src/libloc/address.h:loc_address_set_bit"]}
{"id": "C47", "title": "An update installs only verified databases", "statement": "After location update the local database is either unchanged or replaced by a file that can be opened, that carries a valid signature of its content for the configured public key, and that is not older than the announced version.", "quantifier": "all local files, all announced versions, all sequences of mirror replies, all signature schemes", "why_tests_cant": "Replies of mirrors are arbitrary and may fail at any point.", "anchors": ["src/python/location/downloader.py:Downloader.download,Downloader._check_database", "src/scripts/location.in:handle_update"]}
{"id": "C48", "title": "An update never goes back in time", "statement": "If location update replaces the local database, the new database was created later than the old one.", "quantifier": "all local files, all announcements (including none), all sequences of mirror replies", "why_tests_cant": "Needs an old but validly signed file and a missing announcement.", "anchors": ["src/python/location/downloader.py:Downloader._check_database", "src/scripts/location.in:handle_update"]}
{"id": "C49", "title": "One working mirror is enough for an update", "statement": "If one of the mirrors delivers a database that is new enough and correctly signed, location update installs it, whatever the other mirrors deliver.", "quantifier": "all sequences of mirror replies", "why_tests_cant": "Combinations of failing mirrors before a working one.", "anchors": ["src/python/location/downloader.py:Downloader.download"]}
{"id": "C50", "title": "An export contains exactly the addresses that were asked for", "statement": "For each country code, special code and AS number given to location export, the output contains disjoint networks in ascending order that cover exactly the addresses of the family whose most specific network in the database belongs to that country or AS or has that flag.", "quantifier": "all databases, all lists of country codes and AS numbers, both families, all addresses", "why_tests_cant": "All combinations of nested networks and filters.", "anchors": ["src/python/location/export.py:Exporter.export", "src/python/database.c:Database_search_networks", "src/database.c:__loc_database_enumerator_next_network_flattened,loc_database_enumerator_match_network"]}
{"id": "C51", "title": "Lists never leave their memory", "statement": "Any sequence of calls to the functions of network lists, AS lists and country lists only reads elements that were stored, only writes inside of the allocated array and ends, however often the array has to grow; the lists behave as sorted set (networks) or as list of first occurrences (ASes, countries).", "quantifier": "all operation histories that add at most 2^32 elements", "why_tests_cant": "Off-by-one errors in growing and shifting show only at particular sizes and positions.", "anchors": ["src/network-list.c:loc_network_list_grow,loc_network_list_push,loc_network_list_pop,loc_network_list_pop_first,loc_network_list_remove,loc_network_list_merge", "src/as-list.c:loc_as_list_append", "src/country-list.c:loc_country_list_append"]}
{"id": "C52", "title": "The name of an AS or country is the one last set, and its memory is handled correctly", "statement": "For any sequence of creating, referencing, naming (also with NULL or with the name of an object) and releasing ASes and countries by a caller that uses only objects it holds references to, get_name returns the last name set or NULL, freed memory is neither used nor freed twice, and nothing is left when all references are gone.", "quantifier": "all histories over any number of objects", "why_tests_cant": "Use after free depends on the history and often goes unnoticed when it happens.", "anchors": ["src/as.c:loc_as_set_name,loc_as_get_name,loc_as_unref", "src/country.c:loc_country_set_name,loc_country_get_name,loc_country_unref"]}
{"id": "C53", "title": "The output files denote exactly the networks written to them", "statement": "Whatever the output is (a new file, a pipe, a file opened for appending) and for one or several outputs, reading what location export and location list-networks-by-as/by-cc/by-flags/list-bogons wrote in the format list gives the networks line by line, loading it with nft (format nftables) defines sets with exactly the networks, and loading it with ipset restore (format ipset) makes one set of the right family with exactly the networks for each output.", "quantifier": "all lists of networks, names, families and kinds of output files", "why_tests_cant": "Unit tests use small outputs and one kind of file; headers are rewritten in place.", "anchors": ["src/python/location/export.py:OutputWriter,IpsetOutputWriter,NftablesOutputWriter,XTGeoIPOutputWriter,Exporter.export", "src/scripts/location.in:handle_list_networks_by_as,handle_list_networks_by_cc", "src/network.c:loc_network_str"]}
{"id": "C54", "title": "Questions from Python get the answers of the library", "statement": "In Python, Database.get_as, Database.get_country and Database.lookup return, for a database that was written, the AS or country that was given to the writer and the network that contains the address, return None where there is none, and raise ValueError for texts that are no country code or no address.", "quantifier": "all written databases, all AS numbers below 2^32, all texts", "why_tests_cant": "The binding converts numbers and error codes; only particular ranges and inputs go wrong.", "anchors": ["src/python/database.c:Database_get_as,Database_get_country,Database_lookup"]}
{"id": "C55", "title": "The lookup commands print what the database says", "statement": "location lookup prints for each address the network that the library finds, the name of its country (or the code if it has no name), number and name of its AS and its flags, or that nothing was found; location get-as prints the names of the given ASes. The exit code is 0 if everything was found, 1 if not, 2 for an invalid address.", "quantifier": "all written databases, all lists of arguments", "why_tests_cant": "Combinations of found and missing objects and arguments.", "anchors": ["src/scripts/location.in:handle_lookup,handle_get_as", "src/python/as.c:AS_str"]}
{"id": "C56", "title": "Lua and Perl give the same answers as the library", "statement": "In Lua and Perl, asking for an AS or a country gives what was given to the writer, or nil/undef if there is none or the text is no country code; the text of an AS object is AS, its number and its name.", "quantifier": "all written databases, all texts, all AS numbers below 2^32", "why_tests_cant": "Missing objects are handled differently in each binding.", "anchors": ["src/lua/database.c:Database_get_as,Database_get_country", "src/lua/as.c:AS_tostring", "src/perl/Location.xs:get_country_name,get_continent_code,get_as_name", "src/python/as.c:AS_str"]}
{"id": "C57", "title": "Python objects take valid values and refuse others with ValueError", "statement": "In Python, Network(), Country(), the setters of a network, Writer.add_network, Writer.add_country and Writer.add_as take exactly the valid texts and numbers (a network only once, else IndexError), raise ValueError for others without changing anything, and Network.exclude gives the networks that cover the rest.", "quantifier": "all texts, all numbers, all states of the writer", "why_tests_cant": "Error codes of the library have to be turned into exceptions for every invalid input.", "anchors": ["src/python/network.c:Network_init,Network_set_country_code,Network_set_asn,Network_exclude", "src/python/country.c:Country_init", "src/python/writer.c:Writer_add_as,Writer_add_country,Writer_add_network", "src/python/as.c:AS_get_name"]}
{"id": "C58", "title": "A compiled database answers what the collected tables say", "statement": "After location-importer write, a lookup of an address gives the AS number of the most specific announcement that contains it, and country and flags from, in this order, the overrides of the AS, the most specific override of networks, the feeds about the AS, the most specific feed about networks, and for the country the most specific geofeed entry or registry entry; for addresses outside of all tables nothing is found.", "quantifier": "all contents of the tables, all orders of rows of equal rank, all addresses", "why_tests_cant": "Seven layers of nested networks interact in SQL, in the tree of the writer (which merges networks) and in the lookup.", "anchors": ["src/scripts/location-importer.in:handle_write", "src/writer.c:loc_writer_write", "src/database.c:loc_database_lookup"]}
{"id": "C59", "title": "location-importer write compiles every usable table", "statement": "If all country codes are valid and all AS numbers fit into 32 bits, location-importer write ends without an exception.", "quantifier": "all contents of the tables", "why_tests_cant": "Values that are too large for one of the types on the way are rare.", "anchors": ["src/scripts/location-importer.in:handle_write", "src/python/writer.c:Writer_add_as"]}
{"id": "C60", "title": "ASes, countries and metadata of a compiled database are those of the tables", "statement": "After location-importer write, get_as finds exactly the ASes that have a name, under the name of the override if there is one; get_country finds exactly the countries of the tables with continent and name; vendor, description and license are the given ones.", "quantifier": "all contents of the tables, all AS numbers, all valid country codes", "why_tests_cant": "The search depends on all entries and their order.", "anchors": ["src/scripts/location-importer.in:handle_write", "src/database.c:loc_database_get_as,loc_database_get_country"]}
{"id": "C61", "title": "Files in blocks are read as they are meant", "statement": "The blocks of a file are the groups of lines separated by blank lines; comments do not matter. A block has the type of its first key, and under each key the value of the last line with this key (all values for networks of geofeeds); a line without a colon raises ValueError.", "quantifier": "all files", "why_tests_cant": "Comments, white space, blank lines and the end of the file combine in many ways.", "anchors": ["src/scripts/location-importer.in:iterate_over_blocks,read_blocks"]}
{"id": "C62", "title": "A dump describes the database", "statement": "Reading the output of location dump gives a block for each AS (number, name) and a block for each network (text, country, AS number, flags) of the database in ascending order, and nothing else.", "quantifier": "all written databases", "why_tests_cant": "Names and metadata are arbitrary texts.", "anchors": ["src/scripts/location.in:handle_dump", "src/scripts/location-importer.in:read_blocks"]}
{"id": "C63", "title": "Overrides are what the first block says, or nothing changes", "statement": "location-importer update-overrides replaces the overrides: for each network and each AS there is one exactly if a block in the files is about it, with country, flags and name of the first such block. If a line has no colon or an AS number is invalid, the overrides stay as they were.", "quantifier": "all files, all previous overrides", "why_tests_cant": "Texts of networks and booleans have many forms; order matters.", "anchors": ["src/scripts/location-importer.in:handle_update_overrides,_parse_bool,read_blocks"]}
{"id": "C64", "title": "A dump can be used as a file of overrides", "statement": "location-importer update-overrides with the output of location dump gives an override for each network of the database with its country and flags and for each AS with its name, and no other.", "quantifier": "all written databases, all previous overrides", "why_tests_cant": "Composition of three programs over arbitrary contents.", "anchors": ["src/scripts/location.in:handle_dump", "src/scripts/location-importer.in:handle_update_overrides"]}
{"id": "C65", "title": "A periodic update runs once per period", "statement": "location update --cron does nothing if the local database was created within the period, whatever is announced and whatever the mirrors deliver; otherwise it does what it does without --cron.", "quantifier": "all databases, times and periods, all sequences of mirror replies", "why_tests_cant": "Depends on the clock, the age of the database and the network.", "anchors": ["src/scripts/location.in:handle_update"]}
{"id": "C66", "title": "Leaving out redundant entries of a registry does not change any country", "statement": "location-importer update-whois stores an entry of a registry only if it is of the largest size or its country differs from that of the network around it. Nevertheless the stored entries give every address the country that all entries together give it: that of the most specific entry with a country.", "quantifier": "all tables of networks, all entries of a source, all addresses", "why_tests_cant": "Depends on how arbitrarily nested networks of several sources, with and without countries, interact.", "anchors": ["src/scripts/location-importer.in:_process_source"]}
{"id": "C67", "title": "Statistics of the registries give their addresses the country they say", "statement": "For every assigned or allocated line of the statistics about a known country, update-whois gives exactly the addresses of the line that country; other lines change nothing.", "quantifier": "all lines, all tables", "why_tests_cant": "Unbounded texts, addresses and counts; only a proof covers all alignments and sizes.", "anchors": ["src/scripts/location-importer.in:_parse_line", "src/scripts/location-importer.in:_check_parsed_network"]}
{"id": "C68", "title": "Objects about networks register exactly their range", "statement": "update-whois registers, for every object about networks whose country is known, exactly the range of addresses of the object, divided into the largest networks, with the first known country. Objects that only refer to other registries and ranges of unacceptable networks are left out.", "quantifier": "all objects (lists of lines), all ranges of addresses of either family that do not reach into the IPv4-mapped IPv6 addresses", "why_tests_cant": "Unbounded texts; the division of a range into networks has to be right for all 2^256 pairs of addresses.", "anchors": ["src/scripts/location-importer.in:_parse_inetnum_block", "src/scripts/location-importer.in:_check_parsed_network"]}
{"id": "C69", "title": "Names of autonomous systems from the registries", "statement": "After a source was processed, an AS has the name of the organisation of the last object about the AS, or its first description if it has no organisation; an AS that the objects say nothing about has the name from other sources, or else that of the list of ARIN. Names of ASes that the source does not mention any more are removed.", "quantifier": "all files, all tables", "why_tests_cant": "Joins objects from unbounded files that may come in any order.", "anchors": ["src/scripts/location-importer.in:_parse_autnum_block", "src/scripts/location-importer.in:_parse_org_block", "src/scripts/location-importer.in:_import_arin_as_names", "src/scripts/location-importer.in:_process_source"]}
{"id": "C70", "title": "A source of registry data takes effect as a whole or not at all", "statement": "update-whois processes its sources one after another; each one either takes effect as a whole or leaves everything as it was, and the exit code says whether all took effect. A source that took effect has replaced its old entries: every entry is in its files or from another source, entries of other sources remain, and the country of every address is that of the most specific entry with a country.", "quantifier": "all lists of sources, all files, all tables, all addresses", "why_tests_cant": "Combines arbitrary files of several sources; faults may occur anywhere.", "anchors": ["src/scripts/location-importer.in:handle_update_whois", "src/scripts/location-importer.in:_process_source"]}
{"id": "C71", "title": "Enumerating and cutting networks neither leaks nor uses released networks", "statement": "Whatever a program does with an enumerator of networks, with exclusions and with the networks it gets: no call accesses a released network, a network stays valid and unchanged while the program holds a reference, the lists returned by exclusions hold exactly one reference to each of their networks, and after the program has given back its references and released the enumerator nothing remains, also if calls fail. The networks in the objects are those of C06, C16, C28 and C29.", "quantifier": "all databases (also damaged ones), filters, interleavings of calls, references taken and dropped", "why_tests_cant": "Leaks and uses after free are silent, and depend on the order of calls and on failures in the middle of loops.", "anchors": ["src/network.c:loc_network_subnets,loc_network_exclude,loc_network_exclude_list", "src/network-list.c:loc_network_list_push,loc_network_list_merge,loc_network_list_summarize", "src/database.c:loc_database_enumerator_next_network,loc_database_enumerator_free"]}
{"id": "C72", "title": "Listing commands print exactly what they are asked for", "statement": "location list-networks-by-as, list-networks-by-cc and list-networks-by-flags print exactly the networks of the database with the AS number, the country code, or one of the flags, of the family if one is given, in ascending order and in a form that the consumer of the format reads as these networks; they cover all addresses that lookups assign to the AS, the country or a flag, and no others. list-bogons prints the bogons, search-as the ASes whose names contain the text, list-countries all countries. export exports exactly the named countries and ASes, or everything if there are no arguments. Invalid arguments are refused with exit code 2.", "quantifier": "all written databases, all arguments, all formats, all kinds of standard output", "why_tests_cant": "Composition of the database, its enumerators, the Python bindings and the output formats over arbitrary contents.", "anchors": ["src/scripts/location.in:handle_list_networks_by_as,handle_list_networks_by_cc,handle_list_networks_by_flags,handle_list_bogons,handle_list_countries,handle_search_as,handle_export,run", "src/python/database.c:Database_search_networks,Database_list_bogons,Database_search_as"]}
{"id": "C73", "title": "Objects live exactly as long as somebody can reach them", "statement": "Whatever sequence of calls a program makes that uses only objects it holds references to - contexts, countries, ASes, networks, lists, databases, enumerators, writers, Python databases - and whichever allocations, files and keys fail on the way: the library never uses an object that was released, everything that can be reached from an object somebody holds still exists, and an object, its memory, mapping and file are released as soon as nobody can reach them any more. A call changes only the objects it is called for.", "quantifier": "all sequences of calls, all patterns of failures", "why_tests_cant": "Failures in the middle of functions and interleavings of references cannot be enumerated by tests.", "anchors": ["src/libloc.c:loc_new,loc_unref", "src/country.c", "src/as.c", "src/country-list.c", "src/as-list.c", "src/stringpool.c:loc_stringpool_new,loc_stringpool_grow,loc_stringpool_free", "src/database.c:loc_database_new,loc_database_free,loc_database_enumerator_new,loc_database_enumerator_free", "src/writer.c:loc_writer_new,loc_writer_free,loc_writer_add_as", "src/python/database.c:Database_init,Database_search_networks", "src/python/writer.c:Writer_init"]}
{"id": "C74", "title": "Objects compare like what they stand for", "statement": "In Python and Lua two networks are equal exactly if they are the same block of addresses, two ASes if they have the same number, two countries if they have the same code; unequal is the opposite of equal; the order operators follow the natural order (addresses, then larger blocks first; numbers; alphabet), so that sorting works; equal objects have equal hashes, so that sets and dictionaries hold each once. AS(n) is the AS with number n.", "quantifier": "all objects, all lists of them, all sizes of machine words", "why_tests_cant": "Order and hash laws quantify over all pairs and triples of objects.", "anchors": ["src/python/network.c:Network_richcompare", "src/python/as.c:AS_richcompare,AS_hash,AS_init", "src/python/country.c:Country_richcompare,Country_hash", "src/lua/country.c:Country_eq", "src/network.c:loc_network_cmp", "src/as.c:loc_as_cmp", "src/country.c:loc_country_cmp"]}
{"id": "C75", "title": "Routes of the routing daemon become announcements", "statement": "location-importer update-announcements with the socket of BIRD: every route that the daemon lists, however the reply is cut into pieces on the way, is in the table afterwards with the AS that originates it (for aggregated routes the last AS of the path before the set) and the current time; other entries stay as they were. Then exactly those entries remain that are no default routes, are inside 2000::/3 for IPv6, are not inside special-purpose networks, are not smaller than /24 or /48, belong to public AS numbers and were seen within 14 days. The command ends.", "quantifier": "all tables, all lists of routes, all ways in which the reply is cut into pieces", "why_tests_cant": "Splitting of a stream at arbitrary positions, a regular expression over arbitrary lines.", "anchors": ["src/scripts/location-importer.in:handle_update_announcements,_handle_update_announcements_from_bird,_bird_cmd"]}
{"id": "C76", "title": "Lua and Perl see what the library sees", "statement": "Looking up an address from Lua or Perl gives the network that the database has for it: in Lua the network itself, in Perl its country, its AS number and each of its four flags, or undef (false) for what it does not have. Anything that is not the text of an address, and a flag with another name, is refused. Iterating over the networks in Lua and listing the countries in Perl gives everything exactly once. Networks in Lua know their AS, country, flags, halves and reverse pointers; vendor, description and license are those of the file; verification succeeds only for valid signatures.", "quantifier": "all databases that the writer can produce, all texts, all networks", "why_tests_cant": "The bindings combine arbitrary databases with arbitrary strings.", "anchors": ["src/lua/database.c:Database_lookup,Database_verify,Database_list_networks", "src/lua/network.c", "src/perl/Location.xs"]}
{"id": "C77", "title": "Feeds replace exactly their own data", "statement": "location-importer update-feeds: after it, for every feed that was asked for (all without arguments) and whose file could be fetched and processed, the database has exactly what the file lists: for AWS the networks with the country of their region (anycast for the region GLOBAL; the first entry counts), for the lists of Spamhaus the networks and AS numbers to be dropped. Rows of other feeds stay as they were, also of feeds that could not be processed; rows of unknown feeds are removed. The exit code is 0 if and only if all feeds that were asked for could be processed. A file that is not a feed counts as one that could not be processed, and one odd entry does not spoil the others.", "quantifier": "all contents of the tables, all files, all selections of feeds", "why_tests_cant": "Arbitrary files of third parties; combinations of working and failing feeds.", "anchors": ["src/scripts/location-importer.in:handle_update_feeds,_process_feed,_import_aws_ip_ranges,_import_spamhaus_drop,_import_spamhaus_asndrop"]}
{"id": "C78", "title": "Geofeeds are refreshed, recorded and believed within their networks", "statement": "location-importer update-geofeeds: afterwards exactly those geofeeds are registered that networks refer to. Every one that was not updated for a week is fetched: if its file can be read, its locations are exactly what the lines of the file say (lines that cannot be read, without a valid network or country are skipped); if it is gone (404), it has none; on other errors it keeps them, and the error is recorded. Whatever was last updated two weeks ago is forgotten. What happens to one geofeed does not affect any other. When the database is written, the location that a geofeed gives is used only for networks inside of one that refers to it, and every such network gets exactly one location.", "quantifier": "all tables, all files, all failures of servers, all orders in which downloads end", "why_tests_cant": "Concurrent downloads of files of third parties in any order, with any failure.", "anchors": ["src/scripts/location-importer.in:handle_update_geofeeds,_fetch_geofeed,handle_write"]}
{"id": "C79", "title": "The list of countries is taken over", "statement": "location-importer import-countries: afterwards the database knows exactly the countries that the files list, each with continent and name (blanks in the name are kept) as in the first line about it; comments and lines about something else are skipped. If the command fails, the countries are as before.", "quantifier": "all files, all previous contents", "why_tests_cant": "Arbitrary text files.", "anchors": ["src/scripts/location-importer.in:handle_import_countries"]}
{"id": "C80", "title": "Success of a write means that the database is in the file", "statement": "loc_writer_write returns always. If it returns 0, the file holds the complete database; if any write to the stream fails or is short, the stream cannot be positioned or was opened for reading only, it returns an error.", "quantifier": "all histories of the writer, all streams: every pattern of failing, short or successful calls of fwrite, fseek, fread and fflush", "why_tests_cant": "A test would need a disk that becomes full at every single byte.", "anchors": ["src/writer.c:loc_writer_write,align_page_boundary,loc_database_write_*,loc_writer_create_signature", "src/stringpool.c:loc_stringpool_write"]}
{"id": "C81", "title": "Messages reach the callback that was set, according to the level", "statement": "The environment variable LOC_LOG sets the level by number or name; every message up to the level that was set last reaches the callback that was set last, once, and no other message reaches any callback. Errors are shown unless they are turned off.", "quantifier": "all values of the environment variable, all sequences of setters and messages", "why_tests_cant": "Unbounded strings and sequences of calls.", "anchors": ["src/libloc.c:log_priority,loc_new,loc_log,loc_set_log_callback,loc_set_log_fn,loc_set_log_priority", "src/libloc/private.h:loc_log_cond"]}
{"id": "C82", "title": "Dumps of binary data are complete and stay within their buffers", "statement": "Dumping any data for debugging writes within the arrays of the function only, and prints for every 16 bytes a line with the offset, each byte in two hexadecimal digits, and each printable character (a full stop for others).", "quantifier": "all data, all previous contents of the arrays", "why_tests_cant": "Memory safety for all inputs.", "anchors": ["src/libloc/private.h:hexdump"]}
{"id": "C83", "title": "Read errors never lead to a wrong answer", "statement": "Opening and verifying a database through a stream whose reads may fail or come short ends with the answer for the contents of the file, or with an error after a read error. A file is never accepted because parts of it could not be read. A valid file can be opened whatever descriptors are in use.", "quantifier": "all files, keys and signature schemes, all streams: every pattern of failing and short reads", "why_tests_cant": "A test would need a disk that fails at every possible position.", "anchors": ["src/database.c:loc_database_verify,loc_database_open,loc_database_clone_handle,loc_database_check_magic"]}
{"id": "C84", "title": "Neighbouring halves are joined", "statement": "After a writer has cleaned up its networks, two networks of one family with the same country, AS and flags are the two halves of a block only if a network of exactly that block is stored as well: everything that can be joined into a larger network is.", "quantifier": "all sequences of added networks, including nested ones and chains of joins", "why_tests_cant": "The result depends on the order in which nested networks are met; a test covers single arrangements.", "anchors": ["src/network-tree.c:loc_network_tree_cleanup,loc_network_tree_merge,loc_network_tree_merge_step", "src/network-list.c:loc_network_list_remove_with_prefix_smaller_than"]}
{"id": "C85", "title": "Writing again writes the same database", "statement": "A writer that has written a database writes the same bytes when it is written again without changes in between, to a new file or over the first one, and is not changed by that.", "quantifier": "all histories of calls on a writer, and any keys", "why_tests_cant": "A test compares the two files for single databases; whether the second run changes anything depends on the arrangement of networks and on the strings.", "anchors": ["src/writer.c:loc_writer_write", "src/network-tree.c:loc_network_tree_cleanup", "src/stringpool.c:loc_stringpool_add,loc_stringpool_find"]}
{"id": "C86", "title": "Imported documents are whole", "statement": "What importers read from a downloaded document is the document as the server has it, decompressed if it was compressed; if it does not arrive completely, an exception is raised.", "quantifier": "all documents, all ways of telling their length, connections that are closed, break or fall silent at any position", "why_tests_cant": "A test server delivers whole documents; the position at which a connection ends is arbitrary.", "anchors": ["src/python/location/downloader.py:Downloader.retrieve"]}
{"id": "C87", "title": "Requests are encrypted and go where the URL says", "statement": "A request for an https URL goes out encrypted, to the host of the URL or through a tunnel of the proxy that is configured for https; a request for an http URL goes to the host or to the proxy that is configured for http.", "quantifier": "all hosts and all settings of the proxies", "why_tests_cant": "Which variables are set is up to the environment; tests run without proxies.", "anchors": ["src/python/location/downloader.py:Downloader._get_proxies,Downloader._make_request,Downloader._send_request"]}
{"id": "C88", "title": "Geofeeds are fetched at the same time without sharing a connection", "statement": "Every task that fetches a geofeed gets a connection to the database of its own and keeps it until it has ended, so that no transaction contains statements of another task; connections never run out, and when nothing is left to be done every geofeed has been fetched once unless a task failed.", "quantifier": "any number of geofeeds, downloads that end in any order and with any result, connections that are closed when they are idle", "why_tests_cant": "The order in which downloads end differs from run to run; a test sees one of them, with a handful of geofeeds.", "anchors": ["src/python/location/database.py:Connection.connection,Connection.__release_connection", "src/scripts/location-importer.in:handle_update_geofeeds,_fetch_geofeed"]}
{"id": "C89", "title": "Dates are written and read alike", "statement": "The date of a database that is printed, exported and sent to mirrors is the date of its time in the Gregorian calendar, in the form HTTP prescribes; different times have different dates; and when such a date is published in the DNS, the time returned by the discovery of the latest version is exactly the time of the database.", "quantifier": "all times from 1970 up to the year 9999, all replies with any number of aliases before the text", "why_tests_cant": "A test tries a few dates; leap years, centuries and the ends of months make mistakes that show on few days.", "anchors": ["src/resolv.c:parse_timestamp,loc_discover_latest_version", "src/scripts/location.in:handle_version,handle_dump", "src/python/location/downloader.py:Downloader.download,_check_database"]}
{"id": "C90", "title": "The exit code of location verify and the text of location version", "statement": "`location verify` exits with 0 exactly if the file is a database of which one of the stored signatures is good for the given public key, and with 1 otherwise, in particular if the file or the key is missing; `location version` prints the date at which the database was made.", "quantifier": "all files of at least 4200 bytes, all signatures, keys and signature schemes; all written databases made before the year 10000", "why_tests_cant": "The exit code is what scripts trust; a test tries one good and one bad file.", "anchors": ["src/scripts/location.in:CLI.run,handle_verify,handle_version", "src/python/database.c:Database_verify,Database_get_created_at", "src/database.c:loc_database_verify"]}
{"id": "C91", "title": "The text of location lookup says what was found, and nothing else", "statement": "For every address that is found, `location lookup` prints the address, its network, its country, its AS and its flags, each in a line of its own and in the order of the addresses; from the printed text a program can read exactly these, whatever the names in the database are. `location get-as` prints number and name of each known AS.", "quantifier": "all written databases, all lists of addresses, all names", "why_tests_cant": "Scripts parse this text; names are chosen by others, and a test does not try the names that make one answer look like another.", "anchors": ["src/scripts/location.in:handle_lookup,handle_get_as"]}
{"id": "C92", "title": "Additional networks only change the answers for their own addresses", "statement": "When networks are added to a database, the lookup of every address outside of them gives the same country, AS and flags as before.", "quantifier": "all histories of a writer, all additional networks, all addresses outside of them", "why_tests_cant": "The new networks change the tree that is searched and what is merged in it, for all addresses at once.", "anchors": ["src/writer.c:loc_writer_add_network,loc_writer_write", "src/network-tree.c:loc_network_tree_cleanup", "src/database.c:loc_database_lookup"]}
{"id": "C93", "title": "Lookups and enumerations of a database agree", "statement": "The network which a lookup returns is among the enumerated networks exactly if the filter asks for it, with the same country, AS and flags, and it is the smallest of them that contains the address. A flattened enumeration covers the address exactly if the filter asks for the network which the lookup returns, with the same country, AS and flags; an address which is not found is not covered. An address in a bogon is not found in a country.", "quantifier": "all histories of a writer, all addresses, all filters", "why_tests_cant": "Lookups and enumerations are different searches in the file; all databases and addresses.", "anchors": ["src/database.c:loc_database_lookup,loc_database_enumerator_next_network,__loc_database_enumerator_next_bogon"]}
{"id": "C94", "title": "Exports fit together and to lookups", "statement": "The lists which location export writes for different countries, or for different ASes, have no address in common, also if they are written by different runs with other arguments. An address whose lookup returns a network is on the list for a country, AS or special code exactly if that network belongs to it.", "quantifier": "all databases, all arguments of two exports, all addresses", "why_tests_cant": "Every list is cut out of nested networks by another search; all databases and all pairs of lists.", "anchors": ["src/python/location/export.py:Exporter.export", "src/database.c:__loc_database_enumerator_next_network_flattened,loc_database_lookup"]}
{"id": "C95", "title": "Signing keys change nothing but the signatures", "statement": "If the same calls are made on two writers with different private keys, or without keys, and both write a database at the same time to files with the same former content, the two files have the same length and differ only in the signatures and their lengths; every lookup of an address, an AS or a country gives the same answer in both, vendor, description, license and creation time are the same, and the message that is signed and verified is the same.", "quantifier": "all histories of a writer, all pairs of private keys, all signature schemes, all addresses", "why_tests_cant": "Keys and signatures are kept in the writer between writes; all histories, in particular with failed writes in between.", "anchors": ["src/writer.c:loc_writer_new,loc_writer_write,loc_writer_create_signature", "src/database.c:loc_database_lookup,loc_database_verify"]}
{"id": "C96", "title": "A database copied network by network gives the same answers", "statement": "If all networks that the enumeration of a database returns are added to a new writer, the database which it writes has the same networks as the first one, and every lookup returns the same network with the same country, AS and flags.", "quantifier": "all histories of a writer, all additional data in the copy, all addresses", "why_tests_cant": "The copy is cleaned up a second time when it is written; all databases and addresses.", "anchors": ["src/database.c:loc_database_enumerator_next_network,loc_database_lookup", "src/writer.c:loc_writer_add_network,loc_writer_write", "src/network-tree.c:loc_network_tree_cleanup"]}
{"id": "C97", "title": "A database is no larger than its content allows", "statement": "A database written to a new file has at most 24585 bytes, one byte more than its length for every string passed to the writer, 8 bytes for every AS and country added, and 12 bytes for every network added and for every bit of its prefix (all but the fixed part once more for every earlier write of the same writer). Cleaning up the networks never makes the file larger. Two million networks and four million ASes, countries and other calls with strings of at most 255 bytes therefore always fit into the 4 GiB that offsets in the file can address, and writing them succeeds.", "quantifier": "all histories of calls, with any number of writes in between, all contents of the file that is written over", "why_tests_cant": "The number of nodes of the tree depends on all networks together; no test writes files near 4 GiB.", "anchors": ["src/writer.c:loc_writer_write,loc_database_write_networks,align_page_boundary", "src/network-tree.c:loc_network_tree_cleanup", "src/stringpool.c:loc_stringpool_add"]}
{"id": "C98", "title": "Databases that are too large are refused", "statement": "loc_writer_write returns an error when the content does not fit into the 32 bits that offsets and lengths have in the file. When it succeeds, every AS that was added is found in the database with the name it was given, however many there are.", "quantifier": "all histories of calls of any length", "why_tests_cant": "No test writes more than 4 GiB.", "anchors": ["src/writer.c:loc_writer_write,loc_database_write_as_section,loc_database_write_pool", "src/database.c:loc_database_get_as"]}
{"id": "C99", "title": "ASes and countries are found in few steps", "statement": "A question for an AS or a country reads at most one record more than the binary logarithm of their number: below 2^k entries, the search is over when its loop is entered for the (k+1)th time at the latest. This holds for every file that can be opened, also when its entries are not sorted, and 30 rounds are enough for any file.", "quantifier": "all files, all AS numbers and country codes", "why_tests_cant": "Files that were damaged or made by others contain any values; a search that does not shrink its range would run forever on some of them.", "anchors": ["src/database.c:loc_database_get_as,loc_database_get_country"]}
{"id": "C100", "title": "The answer for an address depends on few bytes of the file", "statement": "For every file that can be opened and every address there are at most 1576 bytes in the file (four numbers of the header, 129 nodes and one network) which determine the answer of loc_database_lookup: any other file of the same length that can be opened and has the same bytes at these places gives the same answer. Damage anywhere else has no effect on this address.", "quantifier": "all files, all addresses, all other files that agree at these places", "why_tests_cant": "All ways to change the rest of a file; files that were damaged or made by others contain any tree, also with loops.", "anchors": ["src/database.c:loc_database_lookup,loc_database_object,loc_database_fetch_network"]}
