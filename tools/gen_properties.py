#!/usr/bin/env python3
"""Generates /verif/properties.jsonl (one JSON object per line)."""
import json, os
P = []
def p(id, title, statement, quantifier, why, anchors):
    P.append(dict(id=id, title=title, statement=statement, quantifier=quantifier,
                  why_tests_cant=why, anchors=anchors))

p("C01", "Network comparison is the numeric order on (first address, prefix)",
  "loc_network_cmp returns a negative number, zero or a positive number exactly as the pair (first address as a 128-bit big-endian number, prefix length) of the first network is smaller than, equal to or larger than that of the second; it is therefore a total order, and zero means same block.",
  "all pairs of networks", "2^128 addresses times 129 prefixes, squared; sorting and binary search need totality and transitivity on all of them.",
  ["src/network.c:loc_network_cmp", "src/libloc/address.h:loc_address_cmp"])
p("C02", "Creating a network canonicalises it to its CIDR block",
  "loc_network_new succeeds exactly when the prefix is at most 128 for an IPv6 address and at most 32 for an IPv4 address. The resulting network reports the family of the given address, the given prefix, the numerically smallest address sharing the first `prefix` bits as first address and the largest one as last address.",
  "all addresses and all prefixes", "The mask is built byte-wise; each of 2^128 x 129 combinations has its own byte boundary and carry situation.",
  ["src/network.c:loc_network_new", "src/libloc/address.h:loc_prefix_to_bitmask,loc_address_and,loc_address_or,loc_address_valid_prefix"])
p("C03", "Address membership is prefix agreement",
  "loc_network_matches_address(n, a) is true exactly when a agrees with the first address of n on the first (raw) prefix bits, i.e. when a lies between first and last address.",
  "all networks built by the library and all addresses", "The domain is 2^128 x 2^128.",
  ["src/network.c:loc_network_matches_address"])
p("C04", "Subnet and overlap tests are set inclusion and set intersection",
  "loc_network_is_subnet(a, b) is true exactly when every address of b is in a; loc_network_overlaps(a, b) is true exactly when some address is in both. Overlap is symmetric, inclusion is a partial order, and two overlapping networks are always nested.",
  "all pairs of networks built by the library", "Quantifies over pairs of networks and all their addresses.",
  ["src/network.c:loc_network_is_subnet,loc_network_overlaps"])
p("C05", "Splitting a network yields its two exact halves",
  "loc_network_subnets on any network that is not a single host returns two networks of one bit longer prefix which are disjoint, whose union is exactly the input network, in ascending order, both carrying the country code, ASN and flags of the input; on a host network it fails. (The code also fails on ::/79 and ::fffe:0:0/95, one half of which looks IPv4-mapped: see the theorems.)",
  "all networks", "Half boundary arithmetic needs carries over up to 16 octets.",
  ["src/network.c:loc_network_subnets", "src/libloc/address.h:loc_address_increment"])
p("C06", "Excluding a subnet is exact set difference",
  "When other is a strict subnet of self, loc_network_exclude(self, other) returns pairwise disjoint networks, in ascending order, that cover exactly the addresses of self that are not in other, each carrying the properties of self.",
  "all pairs of networks with other strictly inside self", "Recursion depth up to 128; result size varies with both prefixes.",
  ["src/network.c:loc_network_exclude,__loc_network_exclude"])
p("C07", "Excluding a list of subnets is exact set difference",
  "loc_network_exclude_list(n, list) for a list holding at least one strict subnet of n returns pairwise disjoint networks, in ascending order, covering exactly the addresses of n that are in no listed network, and it terminates.",
  "all networks and all (sorted) network lists", "Arbitrary list lengths; the work list grows while it is consumed and the scan start is advanced by an optimisation that is only valid by a global ordering argument.",
  ["src/network.c:loc_network_exclude_list"])
p("C08", "A network list is a sorted set under every operation sequence",
  "After any sequence of push, pop, pop_first, remove, merge and clear, the list is strictly ascending in network order, contains exactly the networks a mathematical set would contain (first inserted object wins for equal blocks), contains() answers set membership, pop/pop_first return the largest/smallest element.",
  "all operation histories of any length", "Correctness of the binary search relies on an invariant over all histories.",
  ["src/network-list.c:loc_network_list_find,loc_network_list_push,loc_network_list_pop,loc_network_list_pop_first,loc_network_list_remove,loc_network_list_contains,loc_network_list_merge"])
p("C09", "The writer stores each distinct network exactly once and refuses duplicates",
  "Adding a network that was not added before succeeds and makes it part of the database; adding a block that is already there returns -EBUSY and changes nothing, whatever was added before.",
  "all histories of network additions", "Histories are unbounded and depend on shared trie paths.",
  ["src/network-tree.c:loc_network_tree_add_network,loc_network_tree_get_path", "src/writer.c:loc_writer_add_network"])
p("C10", "Tree clean-up never changes what an address resolves to",
  "The de-duplication, merging and pruning performed before writing leaves, for every address, the properties (country, ASN, flags) of the most specific enclosing network unchanged, and an address without enclosing network stays without.",
  "all sets of networks, all addresses", "Depends on the full nesting structure of an unbounded set of networks and in-place mutation during traversal.",
  ["src/network-tree.c:loc_network_tree_cleanup,loc_network_tree_dedup,loc_network_tree_merge,loc_network_tree_delete_nodes"])
p("C11", "After clean-up no network repeats the properties of its closest enclosing network",
  "In the written tree no network has the same country, ASN and flags as the closest enclosing network of the same family.",
  "all sets of networks", "Quantifies over all nesting structures.",
  ["src/network-tree.c:loc_network_tree_dedup_step"])
p("C12", "Merging only joins two equal-property halves into their exact union",
  "loc_network_merge(a, b) returns a network exactly when a and b are the lower and upper half of one block with equal properties; the result is that block with these properties.",
  "all pairs of networks", "Pairs over 2^128 x 129.",
  ["src/network.c:loc_network_merge", "src/libloc/address.h:loc_address_bit_length"])
p("C13", "The written trie encodes exactly the cleaned tree",
  "Walking the node section of the written file from the root along the bits of an address visits the same branch structure and finds the same networks as the in-memory tree; every network of the tree is stored exactly once.",
  "all trees", "Breadth-first numbering must be consistent for trees of any shape and size.",
  ["src/writer.c:loc_database_write_networks", "src/database.c:__loc_database_lookup"])
p("C14", "Longest-prefix lookup",
  "For every database written by the library and every address, loc_database_lookup returns the most specific stored network containing the address, or nothing when none does.",
  "all writer histories and all addresses", "Every nesting structure and every address; the failing region depends on siblings below the matching network.",
  ["src/database.c:__loc_database_lookup,loc_database_lookup"])
p("C15", "Lookup never returns a wrong network",
  "Whenever loc_database_lookup on a written database returns a network, that network contains the address, is a stored network with the stored country, ASN and flags, and no more specific stored network contains the address.",
  "all writer histories and all addresses", "As C14.",
  ["src/database.c:__loc_database_lookup,__loc_database_lookup_handle_leaf,loc_database_fetch_network"])
p("C16", "Network enumeration is complete, duplicate free and ascending",
  "Draining a network enumerator without filters returns every stored network exactly once, with its stored properties, in ascending network order, then ends.",
  "all databases written by the library", "All tree shapes; the address is reconstructed from partially stale bits during the traversal.",
  ["src/database.c:__loc_database_enumerator_next_network,loc_database_enumerator_stack_push_node"])
p("C17", "Enumeration filters mean what they say",
  "A filtered network enumeration returns exactly the networks whose family matches (if a family is set) and which match one of the configured countries, ASNs or flags (if any is configured).",
  "all databases, all filter settings", "Cross product of unbounded data and filter sets.",
  ["src/database.c:loc_database_enumerator_match_network"])
p("C18", "Enumerating terminates on every file",
  "Draining an enumerator finishes after finitely many steps on every byte sequence accepted as a database, including node graphs with cycles and shared nodes, and every node is expanded at most once.",
  "all byte sequences", "Adversarial files; non-termination cannot be tested.",
  ["src/database.c:__loc_database_enumerator_next_network"])
p("C19", "The traversal stack of the enumerator never overflows",
  "Enumerating a database never writes outside the 256-entry traversal stack.",
  "all databases", "Needs the worst-case shape of the trie.",
  ["src/database.c:loc_database_enumerator_stack_push_node,MAX_STACK_DEPTH"])
p("C20", "Lookup accesses only the 16 address bytes",
  "loc_database_lookup never reads or writes outside the 16 bytes of the looked-up address and of its internal network address.",
  "all databases and all addresses", "Out-of-bounds by one byte is usually silent.",
  ["src/database.c:__loc_database_lookup", "src/libloc/address.h:loc_address_get_bit,loc_address_set_bit"])
p("C21", "Readers never access bytes outside the file",
  "Opening and reading any byte sequence either fails or reads only bytes inside the mapped file.",
  "all byte sequences", "Adversarial and truncated files, unsigned wrap-around in the bounds check.",
  ["src/database.c:__loc_database_check_boundaries,loc_database_object,loc_database_read_header_v1"])
p("C22", "ASes round-trip through the database",
  "For every sequence of added ASes, loc_database_get_as(number) on the written database finds an AS exactly when the number was added, and returns the name given to its first addition (the empty string if none was given).",
  "all sequences of added ASes, all numbers", "Binary search over sorted sections of any size, string pool offsets.",
  ["src/writer.c:loc_database_write_as_section", "src/database.c:loc_database_get_as", "src/as-list.c:loc_as_list_append,loc_as_list_sort"])
p("C23", "AS enumeration returns all ASes in ascending order",
  "Draining an AS enumerator without search string returns each distinct added AS exactly once in ascending number order.",
  "all sequences of added ASes", "Unbounded sequences.",
  ["src/database.c:loc_database_enumerator_next_as", "src/as-list.c:loc_as_list_sort"])
p("C24", "Countries round-trip through the database",
  "For every sequence of added countries, loc_database_get_country(code) on the written database finds a country exactly when it was added and returns its name (the empty string if none was given) and continent code.",
  "all sequences of added countries, all codes", "Depends on the order of additions and on left-over data between records.",
  ["src/writer.c:loc_database_write_countries", "src/database.c:loc_database_get_country", "src/country.c:loc_country_to_database_v1"])
p("C25", "String pool offsets are stable and faithful",
  "For every history of loc_stringpool_add calls, the offset returned for a string yields that string from loc_stringpool_get now and after any further additions; adding a non-empty string again returns the same offset; different strings get different offsets.",
  "all histories of additions", "Histories and string contents are unbounded.",
  ["src/stringpool.c:loc_stringpool_add,loc_stringpool_find,loc_stringpool_append,loc_stringpool_get"])
p("C26", "Metadata round-trips",
  "Vendor, description, license and creation time read from the written database equal what was last set on the writer (empty if never set).",
  "all writer histories, all strings", "Interaction with arbitrary pool contents.",
  ["src/writer.c:loc_writer_set_vendor,loc_writer_write", "src/database.c:loc_database_get_vendor,loc_database_read_header_v1"])
p("C27", "Signature verification covers the whole file except the signatures",
  "A database written with a private key is accepted by loc_database_verify with the matching public key; the verified message determines every byte of the file outside the signature fields, so changing any such byte changes the verified message; a database without signatures is never accepted; it is accepted only if one of its signatures verifies.",
  "all writers, all files, all keys, any signature scheme", "All files and single-byte modifications.",
  ["src/writer.c:loc_writer_create_signature,loc_writer_write", "src/database.c:loc_database_verify"])
p("C28", "Flattened enumeration is a partition",
  "The networks returned by a flattened enumeration are pairwise disjoint and ascending; an address is covered exactly when its most specific stored network matches the filter, and the covering network has exactly the properties of that most specific network.",
  "all databases, all filters, all addresses", "Interleaves traversal, exclusion and re-queuing over unbounded nesting.",
  ["src/database.c:__loc_database_enumerator_next_network_flattened", "src/network.c:loc_network_exclude_list"])
p("C29", "Bogon enumeration returns exactly the gaps",
  "Draining a bogon enumerator returns networks that together cover exactly the addresses not covered by any stored network with a country code.",
  "all databases", "All gap shapes.",
  ["src/database.c:__loc_database_enumerator_next_bogon", "src/network-list.c:loc_network_list_summarize"])
p("C30", "Range summarising covers exactly the range",
  "loc_network_list_summarize(first, last) pushes networks whose union is exactly the addresses from first to last.",
  "all address pairs of one family with first <= last", "2^256 pairs.",
  ["src/network-list.c:loc_network_list_summarize", "src/libloc/address.h:loc_address_common_bits"])
p("C31", "Reverse pointers",
  "loc_network_reverse_pointer returns, for IPv6 networks on a nibble boundary and IPv4 networks on an octet boundary, the hex nibbles (decimal octets) of the network part in reverse order separated by dots, preceded by an asterisk label unless the network is a host, followed by the suffix; other prefixes yield nothing. Different networks of a family have different reverse pointers.",
  "all networks and suffixes", "All addresses and boundaries.",
  ["src/network.c:loc_network_reverse_pointer", "src/libloc/address.h:loc_address_get_nibble,loc_address_get_octet"])
p("C32", "Formatted address strings stay valid for five further calls",
  "The string returned by loc_address_str (and the format_first/last_address functions) is unchanged by the next five formatting calls, for any addresses, starting from any history; the sixth call overwrites it.",
  "all histories of formatting calls", "Histories are unbounded.",
  ["src/address.c:loc_address_str"])
p("C33", "Parsing checks the prefix and defaults to a host",
  "loc_address_parse accepts exactly strings whose part before the first slash is a valid IPv6 or IPv4 address; without slash the prefix is the full length; with a slash followed by a decimal number the prefix is that number and values above the family maximum are rejected.",
  "all strings", "All strings and overflowing numbers.",
  ["src/address.c:loc_address_parse"])
p("C34", "Network strings round-trip",
  "Parsing the string of any network yields the same block again.",
  "all networks", "All networks.",
  ["src/network.c:loc_network_str,loc_network_new_from_string", "src/address.c:loc_address_str,loc_address_parse"])
p("C35", "Country codes are validated on every path",
  "A network's country code is at all times empty or two upper case letters not starting with X, whatever sequence of setter calls was made; matching against a valid code is equality, matching against a special code (A1, A2, A3, XD) tests the corresponding flag.",
  "all call histories, all strings", "Histories and strings are unbounded.",
  ["src/network.c:loc_network_set_country_code,loc_network_matches_country_code", "src/country.c:loc_country_code_is_valid,loc_country_special_code_to_flag"])
p("C36", "Network properties survive the file format",
  "Writing a network record and reading it back yields the same country code, ASN and flags (flags below 2^16) at every address and prefix.",
  "all networks", "All 32-bit ASNs, flags and codes.",
  ["src/network.c:loc_network_to_database_v1,loc_network_new_from_database_v1"])
p("C37", "Writing never uses a released network",
  "Writing a database never accesses a network object after its last reference was dropped, whether or not the caller kept references to the networks it added.",
  "all sets of networks and reference patterns", "Use after free is silent and allocator dependent.",
  ["src/network-tree.c:loc_network_tree_merge_step,loc_network_tree_delete_network"])
p("C38", "The written file does not depend on the order of additions",
  "Adding the same distinct networks and the same distinct ASes in any order produces byte-identical database files (for the same countries, metadata and time).",
  "all permutations of all addition sequences", "Permutations of unbounded sequences.",
  ["src/writer.c:loc_writer_write", "src/network-tree.c", "src/as-list.c"])
p("C39", "Address arithmetic is exact and saturating",
  "Incrementing/decrementing an address adds/subtracts one within its family and leaves the last/first address of the family unchanged; incrementing then decrementing restores; subtraction gives the numeric difference modulo the family size.",
  "all addresses", "Carry chains over 16 octets; loop bounds are re-evaluated on the mutated address.",
  ["src/libloc/address.h:loc_address_increment,loc_address_decrement,loc_address_sub"])
p("C40", "File layout is well formed",
  "In every written file all sections start on page boundaries after the header, do not overlap, lie inside the file, and their lengths are multiples of the record size.",
  "all writers", "All section sizes.",
  ["src/writer.c:loc_writer_write,align_page_boundary"])
p("C41", "Unknown formats are rejected",
  "loc_database_new fails on every file that does not start with the magic and a supported version, and accepts every file produced by loc_writer_write; loc_writer_write refuses unknown versions.",
  "all byte sequences, all writers, all version numbers", "All byte sequences.",
  ["src/database.c:loc_database_check_magic,loc_database_new", "src/writer.c:loc_writer_write"])
p("C42", "Address bit helpers agree with the number",
  "Reading bit i gives the i-th most significant bit; setting bit i changes only this bit; the common-bits helper returns the length of the longest common prefix within the family; the bit-length helper returns the position of the last one bit.",
  "all addresses, all bit positions", "2^128 addresses; undefined compiler builtins at zero octets.",
  ["src/libloc/address.h:loc_address_get_bit,loc_address_set_bit,loc_address_common_bits,loc_address_bit_length"])
p("C43", "DNS replies are parsed inside the reply buffer",
  "loc_discover_latest_version accesses only bytes inside its 512-byte answer buffer for every reply.",
  "all DNS replies", "Adversarial replies.",
  ["src/resolv.c:loc_discover_latest_version"])
p("C44", "A write that succeeds has signed with every key",
  "If loc_writer_write returns success, the file carries, for each private key the writer was given, a signature that the signing primitive produced for the signed message; if signing fails, the write fails.",
  "all writer histories, all keys, all outcomes of the signing primitive", "Signing failures cannot be provoked through the API.",
  ["src/writer.c:loc_writer_create_signature,loc_writer_write"])
p("C45", "Country enumeration is complete and duplicate free",
  "Draining a country enumerator returns each added country exactly once with its name and continent code, in the order in which the countries were first added, and then starts again.",
  "all writer histories", "Unbounded histories; the records refer to a string pool shared with other objects.",
  ["src/database.c:loc_database_enumerator_next_country,loc_database_fetch_country", "src/writer.c:loc_writer_add_country"])
p("C46", "Traversing any file stays inside the library's own objects",
  "Looking up an address and enumerating networks in any byte sequence accepted as a database never read or write outside of the 16 octets of the address, the traversal stack and the table of visited nodes.",
  "all byte sequences, all addresses, all filters", "Adversarial node graphs: cycles, shared nodes, chains deeper than 128 nodes, no nodes.",
  ["src/database.c:__loc_database_lookup,__loc_database_enumerator_next_network,loc_database_enumerator_stack_push_node", "src/libloc/address.h:loc_address_set_bit"])

p("C47", "An update installs only verified databases",
  "After location update the local database is either unchanged or replaced by a file that can be opened, that carries a valid signature of its content for the configured public key, and that is not older than the announced version.",
  "all local files, all announced versions, all sequences of mirror replies, all signature schemes", "Replies of mirrors are arbitrary and may fail at any point.",
  ["src/python/location/downloader.py:Downloader.download,Downloader._check_database", "src/scripts/location.in:handle_update"])
p("C48", "An update never goes back in time",
  "If location update replaces the local database, the new database was created later than the old one.",
  "all local files, all announcements (including none), all sequences of mirror replies", "Needs an old but validly signed file and a missing announcement.",
  ["src/python/location/downloader.py:Downloader._check_database", "src/scripts/location.in:handle_update"])
p("C49", "One working mirror is enough for an update",
  "If one of the mirrors delivers a database that is new enough and correctly signed, location update installs it, whatever the other mirrors deliver.",
  "all sequences of mirror replies", "Combinations of failing mirrors before a working one.",
  ["src/python/location/downloader.py:Downloader.download"])

p("C50", "An export contains exactly the addresses that were asked for",
  "For each country code, special code and AS number given to location export, the output contains disjoint networks in ascending order that cover exactly the addresses of the family whose most specific network in the database belongs to that country or AS or has that flag.",
  "all databases, all lists of country codes and AS numbers, both families, all addresses", "All combinations of nested networks and filters.",
  ["src/python/location/export.py:Exporter.export", "src/python/database.c:Database_search_networks", "src/database.c:__loc_database_enumerator_next_network_flattened,loc_database_enumerator_match_network"])
p("C51", "Lists never leave their memory",
  "Any sequence of calls to the functions of network lists, AS lists and country lists only reads elements that were stored, only writes inside of the allocated array and ends, however often the array has to grow; the lists behave as sorted set (networks) or as list of first occurrences (ASes, countries).",
  "all operation histories that add at most 2^32 elements", "Off-by-one errors in growing and shifting show only at particular sizes and positions.",
  ["src/network-list.c:loc_network_list_grow,loc_network_list_push,loc_network_list_pop,loc_network_list_pop_first,loc_network_list_remove,loc_network_list_merge", "src/as-list.c:loc_as_list_append", "src/country-list.c:loc_country_list_append"])
p("C52", "The name of an AS or country is the one last set, and its memory is handled correctly",
  "For any sequence of creating, referencing, naming (also with NULL or with the name of an object) and releasing ASes and countries by a caller that uses only objects it holds references to, get_name returns the last name set or NULL, freed memory is neither used nor freed twice, and nothing is left when all references are gone.",
  "all histories over any number of objects", "Use after free depends on the history and often goes unnoticed when it happens.",
  ["src/as.c:loc_as_set_name,loc_as_get_name,loc_as_unref", "src/country.c:loc_country_set_name,loc_country_get_name,loc_country_unref"])
p("C53", "The output files denote exactly the networks written to them",
  "Whatever the output is (a new file, a pipe, a file opened for appending) and for one or several outputs, reading what location export and location list-networks-by-as/by-cc/by-flags/list-bogons wrote in the format list gives the networks line by line, loading it with nft (format nftables) defines sets with exactly the networks, and loading it with ipset restore (format ipset) makes one set of the right family with exactly the networks for each output.",
  "all lists of networks, names, families and kinds of output files", "Unit tests use small outputs and one kind of file; headers are rewritten in place.",
  ["src/python/location/export.py:OutputWriter,IpsetOutputWriter,NftablesOutputWriter,XTGeoIPOutputWriter,Exporter.export", "src/scripts/location.in:handle_list_networks_by_as,handle_list_networks_by_cc", "src/network.c:loc_network_str"])

p("C54", "Questions from Python get the answers of the library",
  "In Python, Database.get_as, Database.get_country and Database.lookup return, for a database that was written, the AS or country that was given to the writer and the network that contains the address, return None where there is none, and raise ValueError for texts that are no country code or no address.",
  "all written databases, all AS numbers below 2^32, all texts", "The binding converts numbers and error codes; only particular ranges and inputs go wrong.",
  ["src/python/database.c:Database_get_as,Database_get_country,Database_lookup"])
p("C55", "The lookup commands print what the database says",
  "location lookup prints for each address the network that the library finds, the name of its country (or the code if it has no name), number and name of its AS and its flags, or that nothing was found; location get-as prints the names of the given ASes. The exit code is 0 if everything was found, 1 if not, 2 for an invalid address.",
  "all written databases, all lists of arguments", "Combinations of found and missing objects and arguments.",
  ["src/scripts/location.in:handle_lookup,handle_get_as", "src/python/as.c:AS_str"])
p("C56", "Lua and Perl give the same answers as the library",
  "In Lua and Perl, asking for an AS or a country gives what was given to the writer, or nil/undef if there is none or the text is no country code; the text of an AS object is AS, its number and its name.",
  "all written databases, all texts, all AS numbers below 2^32", "Missing objects are handled differently in each binding.",
  ["src/lua/database.c:Database_get_as,Database_get_country", "src/lua/as.c:AS_tostring", "src/perl/Location.xs:get_country_name,get_continent_code,get_as_name", "src/python/as.c:AS_str"])
p("C57", "Python objects take valid values and refuse others with ValueError",
  "In Python, Network(), Country(), the setters of a network, Writer.add_network, Writer.add_country and Writer.add_as take exactly the valid texts and numbers (a network only once, else IndexError), raise ValueError for others without changing anything, and Network.exclude gives the networks that cover the rest.",
  "all texts, all numbers, all states of the writer", "Error codes of the library have to be turned into exceptions for every invalid input.",
  ["src/python/network.c:Network_init,Network_set_country_code,Network_set_asn,Network_exclude", "src/python/country.c:Country_init", "src/python/writer.c:Writer_add_as,Writer_add_country,Writer_add_network", "src/python/as.c:AS_get_name"])

p("C58", "A compiled database answers what the collected tables say",
  "After location-importer write, a lookup of an address gives the AS number of the most specific announcement that contains it, and country and flags from, in this order, the overrides of the AS, the most specific override of networks, the feeds about the AS, the most specific feed about networks, and for the country the most specific geofeed entry or registry entry; for addresses outside of all tables nothing is found.",
  "all contents of the tables, all orders of rows of equal rank, all addresses", "Seven layers of nested networks interact in SQL, in the tree of the writer (which merges networks) and in the lookup.",
  ["src/scripts/location-importer.in:handle_write", "src/writer.c:loc_writer_write", "src/database.c:loc_database_lookup"])
p("C59", "location-importer write compiles every usable table",
  "If all country codes are valid and all AS numbers fit into 32 bits, location-importer write ends without an exception.",
  "all contents of the tables", "Values that are too large for one of the types on the way are rare.",
  ["src/scripts/location-importer.in:handle_write", "src/python/writer.c:Writer_add_as"])
p("C60", "ASes, countries and metadata of a compiled database are those of the tables",
  "After location-importer write, get_as finds exactly the ASes that have a name, under the name of the override if there is one; get_country finds exactly the countries of the tables with continent and name; vendor, description and license are the given ones.",
  "all contents of the tables, all AS numbers, all valid country codes", "The search depends on all entries and their order.",
  ["src/scripts/location-importer.in:handle_write", "src/database.c:loc_database_get_as,loc_database_get_country"])

p("C61", "Files in blocks are read as they are meant",
  "The blocks of a file are the groups of lines separated by blank lines; comments do not matter. A block has the type of its first key, and under each key the value of the last line with this key (all values for networks of geofeeds); a line without a colon raises ValueError.",
  "all files", "Comments, white space, blank lines and the end of the file combine in many ways.",
  ["src/scripts/location-importer.in:iterate_over_blocks,read_blocks"])
p("C62", "A dump describes the database",
  "Reading the output of location dump gives a block for each AS (number, name) and a block for each network (text, country, AS number, flags) of the database in ascending order, and nothing else.",
  "all written databases", "Names and metadata are arbitrary texts.",
  ["src/scripts/location.in:handle_dump", "src/scripts/location-importer.in:read_blocks"])
p("C63", "Overrides are what the first block says, or nothing changes",
  "location-importer update-overrides replaces the overrides: for each network and each AS there is one exactly if a block in the files is about it, with country, flags and name of the first such block. If a line has no colon or an AS number is invalid, the overrides stay as they were.",
  "all files, all previous overrides", "Texts of networks and booleans have many forms; order matters.",
  ["src/scripts/location-importer.in:handle_update_overrides,_parse_bool,read_blocks"])
p("C64", "A dump can be used as a file of overrides",
  "location-importer update-overrides with the output of location dump gives an override for each network of the database with its country and flags and for each AS with its name, and no other.",
  "all written databases, all previous overrides", "Composition of three programs over arbitrary contents.",
  ["src/scripts/location.in:handle_dump", "src/scripts/location-importer.in:handle_update_overrides"])

p("C65", "A periodic update runs once per period",
  "location update --cron does nothing if the local database was created within the period, whatever is announced and whatever the mirrors deliver; otherwise it does what it does without --cron.",
  "all databases, times and periods, all sequences of mirror replies", "Depends on the clock, the age of the database and the network.",
  ["src/scripts/location.in:handle_update"])

p("C66", "Leaving out redundant entries of a registry does not change any country",
  "location-importer update-whois stores an entry of a registry only if it is of the largest size or its country differs from that of the network around it. Nevertheless the stored entries give every address the country that all entries together give it: that of the most specific entry with a country.",
  "all tables of networks, all entries of a source, all addresses", "Depends on how arbitrarily nested networks of several sources, with and without countries, interact.",
  ["src/scripts/location-importer.in:_process_source"])
p("C67", "Statistics of the registries give their addresses the country they say",
  "For every assigned or allocated line of the statistics about a known country, update-whois gives exactly the addresses of the line that country; other lines change nothing.",
  "all lines, all tables", "Unbounded texts, addresses and counts; only a proof covers all alignments and sizes.",
  ["src/scripts/location-importer.in:_parse_line", "src/scripts/location-importer.in:_check_parsed_network"])
p("C68", "Objects about networks register exactly their range",
  "update-whois registers, for every object about networks whose country is known, exactly the range of addresses of the object, divided into the largest networks, with the first known country. Objects that only refer to other registries and ranges of unacceptable networks are left out.",
  "all objects (lists of lines), all ranges of addresses of either family that do not reach into the IPv4-mapped IPv6 addresses", "Unbounded texts; the division of a range into networks has to be right for all 2^256 pairs of addresses.",
  ["src/scripts/location-importer.in:_parse_inetnum_block", "src/scripts/location-importer.in:_check_parsed_network"])
p("C69", "Names of autonomous systems from the registries",
  "After a source was processed, an AS has the name of the organisation of the last object about the AS, or its first description if it has no organisation; an AS that the objects say nothing about has the name from other sources, or else that of the list of ARIN. Names of ASes that the source does not mention any more are removed.",
  "all files, all tables", "Joins objects from unbounded files that may come in any order.",
  ["src/scripts/location-importer.in:_parse_autnum_block", "src/scripts/location-importer.in:_parse_org_block", "src/scripts/location-importer.in:_import_arin_as_names", "src/scripts/location-importer.in:_process_source"])
p("C70", "A source of registry data takes effect as a whole or not at all",
  "update-whois processes its sources one after another; each one either takes effect as a whole or leaves everything as it was, and the exit code says whether all took effect. A source that took effect has replaced its old entries: every entry is in its files or from another source, entries of other sources remain, and the country of every address is that of the most specific entry with a country.",
  "all lists of sources, all files, all tables, all addresses", "Combines arbitrary files of several sources; faults may occur anywhere.",
  ["src/scripts/location-importer.in:handle_update_whois", "src/scripts/location-importer.in:_process_source"])

p("C71", "Enumerating and cutting networks neither leaks nor uses released networks",
  "Whatever a program does with an enumerator of networks, with exclusions and with the networks it gets: no call accesses a released network, a network stays valid and unchanged while the program holds a reference, the lists returned by exclusions hold exactly one reference to each of their networks, and after the program has given back its references and released the enumerator nothing remains, also if calls fail. The networks in the objects are those of C06, C16, C28 and C29.",
  "all databases (also damaged ones), filters, interleavings of calls, references taken and dropped", "Leaks and uses after free are silent, and depend on the order of calls and on failures in the middle of loops.",
  ["src/network.c:loc_network_subnets,loc_network_exclude,loc_network_exclude_list", "src/network-list.c:loc_network_list_push,loc_network_list_merge,loc_network_list_summarize", "src/database.c:loc_database_enumerator_next_network,loc_database_enumerator_free"])

p("C72", "Listing commands print exactly what they are asked for",
  "location list-networks-by-as, list-networks-by-cc and list-networks-by-flags print exactly the networks of the database with the AS number, the country code, or one of the flags, of the family if one is given, in ascending order and in a form that the consumer of the format reads as these networks; they cover all addresses that lookups assign to the AS, the country or a flag, and no others. list-bogons prints the bogons, search-as the ASes whose names contain the text, list-countries all countries. export exports exactly the named countries and ASes, or everything if there are no arguments. Invalid arguments are refused with exit code 2.",
  "all written databases, all arguments, all formats, all kinds of standard output", "Composition of the database, its enumerators, the Python bindings and the output formats over arbitrary contents.",
  ["src/scripts/location.in:handle_list_networks_by_as,handle_list_networks_by_cc,handle_list_networks_by_flags,handle_list_bogons,handle_list_countries,handle_search_as,handle_export,run", "src/python/database.c:Database_search_networks,Database_list_bogons,Database_search_as"])

p("C73", "Objects live exactly as long as somebody can reach them",
  "Whatever sequence of calls a program makes that uses only objects it holds references to - contexts, countries, ASes, networks, lists, databases, enumerators, writers, Python databases - and whichever allocations, files and keys fail on the way: the library never uses an object that was released, everything that can be reached from an object somebody holds still exists, and an object, its memory, mapping and file are released as soon as nobody can reach them any more. A call changes only the objects it is called for.",
  "all sequences of calls, all patterns of failures", "Failures in the middle of functions and interleavings of references cannot be enumerated by tests.",
  ["src/libloc.c:loc_new,loc_unref", "src/country.c", "src/as.c", "src/country-list.c", "src/as-list.c", "src/stringpool.c:loc_stringpool_new,loc_stringpool_grow,loc_stringpool_free", "src/database.c:loc_database_new,loc_database_free,loc_database_enumerator_new,loc_database_enumerator_free", "src/writer.c:loc_writer_new,loc_writer_free,loc_writer_add_as", "src/python/database.c:Database_init,Database_search_networks", "src/python/writer.c:Writer_init"])

p("C74", "Objects compare like what they stand for",
  "In Python and Lua two networks are equal exactly if they are the same block of addresses, two ASes if they have the same number, two countries if they have the same code; unequal is the opposite of equal; the order operators follow the natural order (addresses, then larger blocks first; numbers; alphabet), so that sorting works; equal objects have equal hashes, so that sets and dictionaries hold each once. AS(n) is the AS with number n.",
  "all objects, all lists of them, all sizes of machine words", "Order and hash laws quantify over all pairs and triples of objects.",
  ["src/python/network.c:Network_richcompare", "src/python/as.c:AS_richcompare,AS_hash,AS_init", "src/python/country.c:Country_richcompare,Country_hash", "src/lua/country.c:Country_eq", "src/network.c:loc_network_cmp", "src/as.c:loc_as_cmp", "src/country.c:loc_country_cmp"])

p("C75", "Routes of the routing daemon become announcements",
  "location-importer update-announcements with the socket of BIRD: every route that the daemon lists, however the reply is cut into pieces on the way, is in the table afterwards with the AS that originates it (for aggregated routes the last AS of the path before the set) and the current time; other entries stay as they were. Then exactly those entries remain that are no default routes, are inside 2000::/3 for IPv6, are not inside special-purpose networks, are not smaller than /24 or /48, belong to public AS numbers and were seen within 14 days. The command ends.",
  "all tables, all lists of routes, all ways in which the reply is cut into pieces", "Splitting of a stream at arbitrary positions, a regular expression over arbitrary lines.",
  ["src/scripts/location-importer.in:handle_update_announcements,_handle_update_announcements_from_bird,_bird_cmd"])

p("C76", "Lua and Perl see what the library sees",
  "Looking up an address from Lua or Perl gives the network that the database has for it: in Lua the network itself, in Perl its country, its AS number and each of its four flags, or undef (false) for what it does not have. Anything that is not the text of an address, and a flag with another name, is refused. Iterating over the networks in Lua and listing the countries in Perl gives everything exactly once. Networks in Lua know their AS, country, flags, halves and reverse pointers; vendor, description and license are those of the file; verification succeeds only for valid signatures.",
  "all databases that the writer can produce, all texts, all networks", "The bindings combine arbitrary databases with arbitrary strings.",
  ["src/lua/database.c:Database_lookup,Database_verify,Database_list_networks", "src/lua/network.c", "src/perl/Location.xs"])

p("C77", "Feeds replace exactly their own data",
  "location-importer update-feeds: after it, for every feed that was asked for (all without arguments) and whose file could be fetched and processed, the database has exactly what the file lists: for AWS the networks with the country of their region (anycast for the region GLOBAL; the first entry counts), for the lists of Spamhaus the networks and AS numbers to be dropped. Rows of other feeds stay as they were, also of feeds that could not be processed; rows of unknown feeds are removed. The exit code is 0 if and only if all feeds that were asked for could be processed. A file that is not a feed counts as one that could not be processed, and one odd entry does not spoil the others.",
  "all contents of the tables, all files, all selections of feeds", "Arbitrary files of third parties; combinations of working and failing feeds.",
  ["src/scripts/location-importer.in:handle_update_feeds,_process_feed,_import_aws_ip_ranges,_import_spamhaus_drop,_import_spamhaus_asndrop"])

p("C78", "Geofeeds are refreshed, recorded and believed within their networks",
  "location-importer update-geofeeds: afterwards exactly those geofeeds are registered that networks refer to. Every one that was not updated for a week is fetched: if its file can be read, its locations are exactly what the lines of the file say (lines that cannot be read, without a valid network or country are skipped); if it is gone (404), it has none; on other errors it keeps them, and the error is recorded. Whatever was last updated two weeks ago is forgotten. What happens to one geofeed does not affect any other. When the database is written, the location that a geofeed gives is used only for networks inside of one that refers to it, and every such network gets exactly one location.",
  "all tables, all files, all failures of servers, all orders in which downloads end", "Concurrent downloads of files of third parties in any order, with any failure.",
  ["src/scripts/location-importer.in:handle_update_geofeeds,_fetch_geofeed,handle_write"])

p("C79", "The list of countries is taken over",
  "location-importer import-countries: afterwards the database knows exactly the countries that the files list, each with continent and name (blanks in the name are kept) as in the first line about it; comments and lines about something else are skipped. If the command fails, the countries are as before.",
  "all files, all previous contents", "Arbitrary text files.",
  ["src/scripts/location-importer.in:handle_import_countries"])

p("C80", "Success of a write means that the database is in the file",
  "loc_writer_write returns always. If it returns 0, the file holds the complete database; if any write to the stream fails or is short, the stream cannot be positioned or was opened for reading only, it returns an error.",
  "all histories of the writer, all streams: every pattern of failing, short or successful calls of fwrite, fseek, fread and fflush", "A test would need a disk that becomes full at every single byte.",
  ["src/writer.c:loc_writer_write,align_page_boundary,loc_database_write_*,loc_writer_create_signature", "src/stringpool.c:loc_stringpool_write"])

p("C81", "Messages reach the callback that was set, according to the level",
  "The environment variable LOC_LOG sets the level by number or name; every message up to the level that was set last reaches the callback that was set last, once, and no other message reaches any callback. Errors are shown unless they are turned off.",
  "all values of the environment variable, all sequences of setters and messages", "Unbounded strings and sequences of calls.",
  ["src/libloc.c:log_priority,loc_new,loc_log,loc_set_log_callback,loc_set_log_fn,loc_set_log_priority", "src/libloc/private.h:loc_log_cond"])

p("C82", "Dumps of binary data are complete and stay within their buffers",
  "Dumping any data for debugging writes within the arrays of the function only, and prints for every 16 bytes a line with the offset, each byte in two hexadecimal digits, and each printable character (a full stop for others).",
  "all data, all previous contents of the arrays", "Memory safety for all inputs.",
  ["src/libloc/private.h:hexdump"])

p("C83", "Read errors never lead to a wrong answer",
  "Opening and verifying a database through a stream whose reads may fail or come short ends with the answer for the contents of the file, or with an error after a read error. A file is never accepted because parts of it could not be read. A valid file can be opened whatever descriptors are in use.",
  "all files, keys and signature schemes, all streams: every pattern of failing and short reads", "A test would need a disk that fails at every possible position.",
  ["src/database.c:loc_database_verify,loc_database_open,loc_database_clone_handle,loc_database_check_magic"])

p("C84", "Neighbouring halves are joined",
  "After a writer has cleaned up its networks, two networks of one family with the same country, AS and flags are the two halves of a block only if a network of exactly that block is stored as well: everything that can be joined into a larger network is.",
  "all sequences of added networks, including nested ones and chains of joins", "The result depends on the order in which nested networks are met; a test covers single arrangements.",
  ["src/network-tree.c:loc_network_tree_cleanup,loc_network_tree_merge,loc_network_tree_merge_step", "src/network-list.c:loc_network_list_remove_with_prefix_smaller_than"])

p("C85", "Writing again writes the same database",
  "A writer that has written a database writes the same bytes when it is written again without changes in between, to a new file or over the first one, and is not changed by that.",
  "all histories of calls on a writer, and any keys", "A test compares the two files for single databases; whether the second run changes anything depends on the arrangement of networks and on the strings.",
  ["src/writer.c:loc_writer_write", "src/network-tree.c:loc_network_tree_cleanup", "src/stringpool.c:loc_stringpool_add,loc_stringpool_find"])

p("C86", "Imported documents are whole",
  "What importers read from a downloaded document is the document as the server has it, decompressed if it was compressed; if it does not arrive completely, an exception is raised.",
  "all documents, all ways of telling their length, connections that are closed, break or fall silent at any position", "A test server delivers whole documents; the position at which a connection ends is arbitrary.",
  ["src/python/location/downloader.py:Downloader.retrieve"])

p("C87", "Requests are encrypted and go where the URL says",
  "A request for an https URL goes out encrypted, to the host of the URL or through a tunnel of the proxy that is configured for https; a request for an http URL goes to the host or to the proxy that is configured for http.",
  "all hosts and all settings of the proxies", "Which variables are set is up to the environment; tests run without proxies.",
  ["src/python/location/downloader.py:Downloader._get_proxies,Downloader._make_request,Downloader._send_request"])

p("C88", "Geofeeds are fetched at the same time without sharing a connection",
  "Every task that fetches a geofeed gets a connection to the database of its own and keeps it until it has ended, so that no transaction contains statements of another task; connections never run out, and when nothing is left to be done every geofeed has been fetched once unless a task failed.",
  "any number of geofeeds, downloads that end in any order and with any result, connections that are closed when they are idle", "The order in which downloads end differs from run to run; a test sees one of them, with a handful of geofeeds.",
  ["src/python/location/database.py:Connection.connection,Connection.__release_connection", "src/scripts/location-importer.in:handle_update_geofeeds,_fetch_geofeed"])

p("C89", "Dates are written and read alike",
  "The date of a database that is printed, exported and sent to mirrors is the date of its time in the Gregorian calendar, in the form HTTP prescribes; different times have different dates; and when such a date is published in the DNS, the time returned by the discovery of the latest version is exactly the time of the database.",
  "all times from 1970 up to the year 9999, all replies with any number of aliases before the text", "A test tries a few dates; leap years, centuries and the ends of months make mistakes that show on few days.",
  ["src/resolv.c:parse_timestamp,loc_discover_latest_version", "src/scripts/location.in:handle_version,handle_dump", "src/python/location/downloader.py:Downloader.download,_check_database"])

p("C90", "The exit code of location verify and the text of location version",
  "`location verify` exits with 0 exactly if the file is a database of which one of the stored signatures is good for the given public key, and with 1 otherwise, in particular if the file or the key is missing; `location version` prints the date at which the database was made.",
  "all files of at least 4200 bytes, all signatures, keys and signature schemes; all written databases made before the year 10000", "The exit code is what scripts trust; a test tries one good and one bad file.",
  ["src/scripts/location.in:CLI.run,handle_verify,handle_version", "src/python/database.c:Database_verify,Database_get_created_at", "src/database.c:loc_database_verify"])

p("C91", "The text of location lookup says what was found, and nothing else",
  "For every address that is found, `location lookup` prints the address, its network, its country, its AS and its flags, each in a line of its own and in the order of the addresses; from the printed text a program can read exactly these, whatever the names in the database are. `location get-as` prints number and name of each known AS.",
  "all written databases, all lists of addresses, all names", "Scripts parse this text; names are chosen by others, and a test does not try the names that make one answer look like another.",
  ["src/scripts/location.in:handle_lookup,handle_get_as"])

p("C92", "Additional networks only change the answers for their own addresses",
  "When networks are added to a database, the lookup of every address outside of them gives the same country, AS and flags as before.",
  "all histories of a writer, all additional networks, all addresses outside of them", "The new networks change the tree that is searched and what is merged in it, for all addresses at once.",
  ["src/writer.c:loc_writer_add_network,loc_writer_write", "src/network-tree.c:loc_network_tree_cleanup", "src/database.c:loc_database_lookup"])

p("C93", "Lookups and enumerations of a database agree",
  "The network which a lookup returns is among the enumerated networks exactly if the filter asks for it, with the same country, AS and flags, and it is the smallest of them that contains the address. A flattened enumeration covers the address exactly if the filter asks for the network which the lookup returns, with the same country, AS and flags; an address which is not found is not covered. An address in a bogon is not found in a country.",
  "all histories of a writer, all addresses, all filters", "Lookups and enumerations are different searches in the file; all databases and addresses.",
  ["src/database.c:loc_database_lookup,loc_database_enumerator_next_network,__loc_database_enumerator_next_bogon"])

p("C94", "Exports fit together and to lookups",
  "The lists which location export writes for different countries, or for different ASes, have no address in common, also if they are written by different runs with other arguments. An address whose lookup returns a network is on the list for a country, AS or special code exactly if that network belongs to it.",
  "all databases, all arguments of two exports, all addresses", "Every list is cut out of nested networks by another search; all databases and all pairs of lists.",
  ["src/python/location/export.py:Exporter.export", "src/database.c:__loc_database_enumerator_next_network_flattened,loc_database_lookup"])

p("C95", "Signing keys change nothing but the signatures",
  "If the same calls are made on two writers with different private keys, or without keys, and both write a database at the same time to files with the same former content, the two files have the same length and differ only in the signatures and their lengths; every lookup of an address, an AS or a country gives the same answer in both, vendor, description, license and creation time are the same, and the message that is signed and verified is the same.",
  "all histories of a writer, all pairs of private keys, all signature schemes, all addresses", "Keys and signatures are kept in the writer between writes; all histories, in particular with failed writes in between.",
  ["src/writer.c:loc_writer_new,loc_writer_write,loc_writer_create_signature", "src/database.c:loc_database_lookup,loc_database_verify"])

p("C96", "A database copied network by network gives the same answers",
  "If all networks that the enumeration of a database returns are added to a new writer, the database which it writes has the same networks as the first one, and every lookup returns the same network with the same country, AS and flags.",
  "all histories of a writer, all additional data in the copy, all addresses", "The copy is cleaned up a second time when it is written; all databases and addresses.",
  ["src/database.c:loc_database_enumerator_next_network,loc_database_lookup", "src/writer.c:loc_writer_add_network,loc_writer_write", "src/network-tree.c:loc_network_tree_cleanup"])

p("C97", "A database is no larger than its content allows",
  "A database written to a new file has at most 24585 bytes, one byte more than its length for every string passed to the writer, 8 bytes for every AS and country added, and 12 bytes for every network added and for every bit of its prefix (all but the fixed part once more for every earlier write of the same writer). Cleaning up the networks never makes the file larger. Two million networks and four million ASes, countries and other calls with strings of at most 255 bytes therefore always fit into the 4 GiB that offsets in the file can address, and writing them succeeds.",
  "all histories of calls, with any number of writes in between, all contents of the file that is written over", "The number of nodes of the tree depends on all networks together; no test writes files near 4 GiB.",
  ["src/writer.c:loc_writer_write,loc_database_write_networks,align_page_boundary", "src/network-tree.c:loc_network_tree_cleanup", "src/stringpool.c:loc_stringpool_add"])

p("C98", "Databases that are too large are refused",
  "loc_writer_write returns an error when the content does not fit into the 32 bits that offsets and lengths have in the file. When it succeeds, every AS that was added is found in the database with the name it was given, however many there are.",
  "all histories of calls of any length", "No test writes more than 4 GiB.",
  ["src/writer.c:loc_writer_write,loc_database_write_as_section,loc_database_write_pool", "src/database.c:loc_database_get_as"])

p("C99", "ASes and countries are found in few steps",
  "A question for an AS or a country reads at most one record more than the binary logarithm of their number: below 2^k entries, the search is over when its loop is entered for the (k+1)th time at the latest. This holds for every file that can be opened, also when its entries are not sorted, and 30 rounds are enough for any file.",
  "all files, all AS numbers and country codes", "Files that were damaged or made by others contain any values; a search that does not shrink its range would run forever on some of them.",
  ["src/database.c:loc_database_get_as,loc_database_get_country"])

p("C100", "The answer for an address depends on few bytes of the file",
  "For every file that can be opened and every address there are at most 1576 bytes in the file (four numbers of the header, 129 nodes and one network) which determine the answer of loc_database_lookup: any other file of the same length that can be opened and has the same bytes at these places gives the same answer. Damage anywhere else has no effect on this address.",
  "all files, all addresses, all other files that agree at these places", "All ways to change the rest of a file; files that were damaged or made by others contain any tree, also with loops.",
  ["src/database.c:loc_database_lookup,loc_database_object,loc_database_fetch_network"])

if __name__ == "__main__":
    out = os.path.join(os.path.dirname(__file__), "..", "properties.jsonl")
    with open(out, "w") as f:
        for x in P:
            f.write(json.dumps(x) + "\n")
    print(len(P), "properties")
