# Formal model of libloc in Lean 4 — design

Code: `/repo` (ipfire/libloc, C). Properties: `properties.jsonl` (C01 …). Claims: `MANIFEST.json`.
Lean project: `lean/`, modules under `lean/Verif/`.

## 1. Trusted base

* Lean 4.33.0's kernel and the three standard axioms `propext`, `Classical.choice`,
  `Quot.sound`. No axioms of our own, no `sorry`, no `native_decide`, no `bv_decide`.
  `lean/Verif/Axioms.lean` prints the axioms of every claimed theorem during the build.
* The hand translation C -> Lean. Every model definition cites the file and lines it follows and
  says where it simplifies.
* The specification definitions in `lean/Verif/Spec/*.lean` (plain mathematics, no model helpers).

## 2. What is modelled, what is not

| Lean module | code |
|-------------|------|
| `Model/Address` | `libloc/address.h`, all inline functions used by the library |
| `Model/CountryCode` | `libloc/country.h` (`loc_country_code_copy`), `country.c` (validity, special codes) |
| `Model/Network` | `network.c` except the text functions |
| `Model/NetworkList` | `network-list.c` except `dump` |
| `Model/Arr` | the arrays of `network-list.c`, `as-list.c`, `country-list.c` |
| `Model/Names` | names and reference counts of `as.c`, `country.c` |
| `Model/Formats` | output writers of `export.py`, used by `location.in` |
| `Model/Tree` | `network-tree.c` |
| `Model/Lifetime` | reference counts of networks in `network.c`, `network-list.c`, `network-tree.c`, `writer.c` |
| `Model/EnumLife` | reference counts of networks in `network.c` (subnets, exclusion), `network-list.c`, `database.c` (enumerators) |
| `Model/Stringpool` | `stringpool.c`, with the size of the buffer |
| `Model/Format` | `libloc/format.h`: field offsets and byte order, `htobe*`/`be*toh` |
| `Model/Writer` | `writer.c`, `as.c`, `as-list.c`, `country.c`, `country-list.c` as far as the writer uses them |
| `Model/Database` | `database.c`: open, boundaries, metadata, AS and country search, lookup, verify |
| `Model/Enumerator` | `database.c`: enumerators, filters, depth-first traversal |
| `Model/Flatten`, `Model/Bogon` | `database.c`: flattened and bogon enumeration |
| `Model/Text` | `address.c` (parse, string ring), `network.c` (string, reverse pointer) |
| `Model/Resolv` | `resolv.c` |
| `Model/Update` | `python/location/downloader.py` (`download`, `_check_database`), `scripts/location.in` (`handle_update`) |
| `Model/Export` | `python/location/export.py` (`Exporter`), `python/database.c` (`search_networks`) |
| `Model/Bindings` | `src/python/*.c`, `src/lua/*.c`, `src/perl/Location.xs`: questions to the database, filling the writer, setters |
| `Model/Cli` | `scripts/location.in` (`handle_lookup`, `handle_get_as`) |
| `Model/Listing` | `scripts/location.in` (`handle_list_*`, `handle_search_as`, arguments of `handle_export`, exit codes of `run`), `python/database.c` (`search_networks`, `search_as`, `list_bogons`, iteration) |
| `Model/Objects` | reference counts and ownership: `libloc.c` (new, unref), `country.c`, `as.c`, `country-list.c`, `as-list.c`, `stringpool.c`, `network-tree.c` (new, unref), `database.c` (new, open, fetching objects, enumerators), `writer.c` (new, adding objects, unref), `python/database.c`, `python/writer.c` (init, search, dealloc), with every failing allocation |
| `Model/Compare` | `python/network.c`, `python/as.c`, `python/country.c` (`*_richcompare`, `*_hash`, `AS_init`), `lua/country.c` (`Country_eq`), with the rules of the interpreters for comparisons, sorting and sets |
| `Model/Import` | `scripts/location-importer.in` (`handle_write`) |
| `Model/Dump` | `scripts/location.in` (`handle_dump`), `scripts/location-importer.in` (`iterate_over_blocks`, `read_blocks`, `handle_update_overrides` without geofeeds) |
| `Model/Whois` | `scripts/location-importer.in` (`handle_update_whois`, `_process_source`, `_import_*`, `_parse_*`, `_check_parsed_*`) without downloads |
| `Model/Announce` | `scripts/location-importer.in` (`handle_update_announcements`, reading from BIRD: `_bird_cmd` and its regular expressions) |
| `Model/Scripts` | `lua/database.c` (lookup, verification, iterating, metadata), `lua/network.c`, `perl/Location.xs` (flags, countries, verification) |
| `Model/Feeds` | `scripts/location-importer.in` (`handle_update_feeds`, `_process_feed` and the importers for AWS and Spamhaus); the parser of JSON is a parameter |
| `Model/Geofeeds` | `scripts/location-importer.in` (`handle_update_geofeeds`, `_fetch_geofeed`, the subquery for geofeeds of `handle_write`, `handle_import_countries`); the servers, the decoder of UTF-8 and the clock are parameters |
| `Model/WriteIo` | `writer.c` (`loc_writer_write`, `align_page_boundary`, the writing part of `loc_writer_create_signature`), `stringpool.c` (`loc_stringpool_write`), on streams that may fail |
| `Model/Logging` | `libloc.c` (`log_priority`, `loc_new`, `loc_log`, the setters), `libloc/private.h` (the macros for messages, `hexdump`) |
| `Model/ReadIo` | `database.c` (`loc_database_open`, `loc_database_clone_handle`, `loc_database_check_magic`, `loc_database_verify`) on streams whose reads may fail |
| `Model/Retrieve` | `python/location/downloader.py` (`retrieve`, `_get_proxies`, `_make_request`, `_send_request`), with the parts of CPython's `http.client` and `urllib.request` they rely on |
| `Model/Tasks` | `python/location/database.py` (`Connection.connection`, `__release_connection`), `scripts/location-importer.in` (tasks of `handle_update_geofeeds`), with the parts of CPython's `asyncio` they rely on |
| `Model/Dates` | `resolv.c` (`parse_timestamp`), the `time.strftime` of `scripts/location.in` and `python/location/downloader.py` |
| `Model/Commands` | `scripts/location.in` (`CLI.run`, `handle_verify`, `handle_version`), `python/database.c` (`Database_verify`) |
| `Model/CliText` | `scripts/location.in` (the text printed by `handle_lookup` and `handle_get_as`) |

Not modelled: where `libloc` sends messages by default (`log_stderr`), the parts of the Perl/Lua/Python bindings and of the
Python tools other than those in the table, memory allocation failure outside `Model/Objects`, threads (libloc
has no locking), I/O errors outside `Model/WriteIo` and `Model/ReadIo` (a file is a
list of bytes; `fread`, `fseek`, `mmap` succeed).

What CPython's libraries do (`http.client`, `urllib`, `str`, `re`, `ipaddress`, `csv`) and what PostgreSQL makes of a statement is
part of the trusted base where a model says that it follows them: those sources are not in the repository.

Parameters of the model (theorems hold for every value, or say what they assume):

* OpenSSL: `EVP_DigestSign*`/`EVP_DigestVerify*` are functions from message and key to a return value;
  theorems about acceptance assume that a verifying signature was made for the message.
* `ctz0`: the result of `__builtin_ctz(0)` (undefined in C). Where it matters theorems assume at least
  8, which all compilers' instruction selections give (32 on machines with `tzcnt`).
* `reread`: what is read from a released network in network-tree.c:434 (see C37).
* `junk`: uninitialised bytes that are written to the file (C38), uninitialised stack of the country
  record (C24).
* `dn_expand`, `res_query` in C43 and C89, `strptime` in C43 (modelled for C89); the clock (`created_at`).
* HTTP and LZMA in C47-C49: a mirror replies with any bytes and ends in any way.

Written after glibc's documentation and source, not after code in `/repo`: `inet_pton`, `inet_ntop`,
`strtol`, `snprintf("%s/%u")`, `strcasestr`, `gmtime`, `strftime`, `strptime` and `timegm` (C89), `bsearch`-free comparisons, `qsort` (a sorted permutation
of the AS list; AS numbers are unique). The host is little-endian, `int` has 32, `size_t` 64 bits.

Conventions

* An octet is `BitVec 8`, an address (`struct in6_addr`) a `Vector (BitVec 8) 16`.
* Machine integers are `BitVec n` or `Nat` reduced modulo `2^n` where the C code can wrap.
* Undefined behaviour (out-of-bounds access, `__builtin_ctz(0)`, use after free) is a separate
  outcome or a parameter of the model, never a silently chosen default value. An oracle parameter
  such as `ctz0` (value of `__builtin_ctz(0)`) or `stray` (the byte beyond an address) makes the
  dependence explicit: theorems either hold for every value of the oracle or say which they need.
* Loops become structural recursion; loops whose termination is not obvious get fuel and a theorem
  says that a stated amount of fuel suffices.
* A C pointer to an immutable/reference-counted object is the value of the object. Object identity
  and lifetimes are only modelled in the reference-count model (C37).

## 3. Plan per property

| id | modelled | how proved |
|----|----------|------------|
| C01 | `loc_address_cmp`, `loc_network_cmp` | octet-wise comparison = comparison of 128-bit numbers, by induction over octets |
| C02 | `loc_network_new`, masks | bit-list view of addresses; first/last = prefix padded with 0/1 |
| C03 | `loc_network_matches_address` | from C02 by order reasoning |
| C04 | `loc_network_is_subnet`, `overlaps` | bit-prefix characterisation |
| C05 | `loc_network_subnets`, `loc_address_increment` | prefix ++ [0] / prefix ++ [1]; the only failing non-host network is characterised exactly |
| C06 | `__loc_network_exclude` | induction over 128 - prefix |
| C07 | `loc_network_exclude_list` | work-list invariant: processed + pending = remaining set; measure for termination |
| C08 | `network-list.c` | binary search refines sorted-set lookup; invariant by induction over operation histories |
| C09 | `network-tree.c` get_path/add | trie as path -> network map; refinement |
| C10 | dedup, merge, prune | each step preserves longest-prefix properties; invariant through the mutating walk |
| C11 | dedup | invariant over the walk (ancestor stack) |
| C12 | `loc_network_merge` | bit-list reasoning, `ctz0` oracle |
| C13 | `loc_database_write_networks` | BFS numbering invariant; byte-level decode of node records |
| C14 | `loc_database_lookup` | the code violates it: negation with witness; positive theorem for sets without strict nesting (`_partial`) and exact characterisation |
| C15 | `loc_database_lookup` | induction over the address bits against the written trie |
| C16 | enumerator | DFS with stale address bits; invariant: bits above depth are the path; condition on v4-mapped look-alikes; for all databases: an initial part, complete unless an error is reported |
| C17 | `match_network` | decision logic vs. set specification |
| C18 | enumerator on arbitrary bytes, also flattened and for bogons | measure: unvisited nodes; flattened: then the multiset of prefix lengths of the stack, by cutting only longer networks are put back; bogons: then the open gaps, then the stack |
| C19 | enumerator | stack bound; negation for full-depth tries |
| C20 | lookup | `oob` outcome iff a host-length path is followed; negation + exact condition |
| C21 | `check_boundaries`, readers | wrap-around model mod 2^64; negation + condition |
| C22, C23 | AS writer/reader | round trip + binary search |
| C24 | countries | negation (unsorted, continent leak); positive for ascending additions |
| C25 | string pool | invariant over histories |
| C26 | metadata | end-to-end through bytes |
| C27 | sign/verify | abstract scheme; message equality; injectivity of message |
| C28 | flattened enumeration | work-queue invariant using C07 |
| C29, C30 | bogons, summarise | negations, coverage (`_partial`) |
| C31 | reverse pointer | string equality with spec; injectivity |
| C32 | buffer ring | arithmetic mod 6 over histories |
| C33, C34 | parse/str | libc conversion functions as parameters with stated contract |
| C35 | country codes | invariant over setter histories |
| C36 | record codec | round trip |
| C37 | reference counts in merge | negation with witness, `_partial` when the caller keeps references |
| C38 | writer | trie is canonical: permutation invariance |
| C39, C42 | address helpers | arithmetic |
| C40, C41 | writer, open | end-to-end through bytes |
| C43 | DNS answer | index bound; negation at full buffer |
| C44 | writer, signing | case analysis on the return values of the parameters |
| C45 | enumerators of ASes and countries | induction over the records of the file |
| C46 | traversal of arbitrary files | bounds as a separate outcome, invariant: level < 128 |
| C47 | `location update` | induction over the mirrors; the returned file passed all checks |
| C48, C49 | `location update` | from C47; negations with witnesses |
| C50 | `location export` | from C28: outputs are filters of the flattened enumeration |
| C51 | arrays of the lists | refinement: the first cells of the array are the list of C08 |
| C52 | heap of names | invariant: live strings and named objects correspond one to one; negations with witnesses |
| C53 | output writers, files with a position | grammar of lines and words; sets read back by induction over the networks; negations with witnesses |
| C54 | Python binding over the database model | composition with C15, C16, C23, C24, C33; negations for all databases |
| C55 | commands over the Python binding | induction over the arguments; relation between answers and printed lines |
| C56 | Lua and Perl bindings over the database model | composition with C23, C24; negation for every written database |
| C57 | Python binding over writer and network model | composition with C06, C09, C33; negations |
| C58 | tables and updates of the importer | an import is a history of calls on the writer; most specific row of a table = most specific network around the address; composition with C15 |
| C59 | the same | success by induction over the rows; negations |
| C60 | the same | composition with C23, C24, C26 |
| C61 | files as bytes, lines, blocks, dictionaries | an inductive specification of lines and blocks, soundness and completeness by induction over the lines; uniqueness of the meaning |
| C62 | `handle_dump` | what the enumerators return (C18, C21), then induction over the entries of the dump; negations for names with `#` and vendors with a newline |
| C63 | tables of overrides, transaction | induction over the blocks with the first block of each key as invariant |
| C64 | the same | composition of C62, C63 and the round trip of network texts (C34) |
| C65 | `handle_update` with `--cron` | case analysis on the local database |
| C66 | tables `networks` and `_rirdata`, the copying statements | induction over the prefix length: up to each length the stored entries say what all entries say; negation for entries without a country |
| C67 | lines of statistics | a specification of lines (`StatAbout`), the network of a line; aligned powers of two; negations |
| C68 | objects, `summarize_address_range` | an inductive specification of attributes; ranges: recursion of the division, its networks are the maximal ones |
| C69 | objects, list of ARIN, joins | "last says"/"first says" over the list of parts, induction over the parts |
| C70 | sources, transactions | induction over the sources; composition of C66-C69 |
| C71 | objects with reference counts under the functions of C06, C16, C28, C29 | simulation of the functions on networks, with an account of all references; induction over the steps of the program; negation for bogons |
| C72 | the commands as functions from arguments to what is written to standard output and the exit code | composition of C16, C17, C23, C29, C45, C50, C53 with the conversion of arguments; negations with concrete databases |
| C73 | a heap of objects with counters and typed fields; each function as a program over it in which each allocation may fail | weakest preconditions over the invariant: counter = references in fields + held by the program + held by the running function; reachability by well-founded types; negations with concrete histories |
| C74 | comparison slots and the protocol of the interpreters around them | order laws from those of the comparison functions of the library; induction over lists for sorting and sets; negations |
| C75 | regular expressions as lists of matches in the order of preference; the buffer of the reader; the table as a list | the reader gives the same lines however the text is cut, by induction over the pieces; the expressions characterised by inversion; negations |
| C76 | the bindings of Lua and Perl as functions on top of the library; an error or `die` is `none` | from C14, C16, C26, C05 and C31 through the functions of the bindings; negations on the example database |
| C77 | JSON values, tables as lists with unique keys, exceptions as `none` | each entry characterised by an equivalence, then folds over entries and feeds by induction; negations by evaluation |
| C78 | tables as lists, servers as a function, tasks in the order in which they end (any permutation) | fields of lines by splitting, induction over the tasks with an invariant per feed; negation by running the model |
| C79 | files as lists of lines, the table as a list with unique keys | words by splitting, induction over the lines |
| C80 | a stream is a state with functions for `fwrite`, `fseek`, `fread`, `fflush`; specification: streams that show contents and position | refinement of the model of writing to such streams, for those that take all bytes; induction over records and padding for those that do not; a loop that does not end is an outcome |
| C81 | bytes, `strtol` as in the standard, sequences of calls | splitting into blanks, sign, digits; induction over the calls |
| C82 | arrays as lists with bounds; an access outside is an outcome | invariant of the arrays per byte of data |
| C83 | a stream is a state with functions for `rewind`, `fread`, `feof`; specification: streams which show the contents of a file at a position, and count the errors to come | invariant of the loop (what was read is what was passed over), a measure of remaining bytes and errors; a loop that does not end is an outcome |
| C84 | the model of C10 (`treeMerge`); specification: halves of a block | invariant of the walk in visiting order: halves visited have a union that was stored, every lower half on the way to the current node is in the list, a union that is new has no lower half; induction on chains of joins |
| C85 | the models of C10 and of writing (C22-C40), run twice | removing repetitions is idle where nothing is repeated, merging is idle where all halves are joined, pruned trees with the same networks are equal, strings are found at their first place, signing the same bytes gives the same buffer |
| C86 | `retrieve`, with CPython's `HTTPResponse.read` over connections that end in any way | induction over the reads; the result is characterised for all replies |
| C87 | `_get_proxies`, `_make_request`, with CPython's `set_proxy` and `ProxyHandler` | cases over which proxies are set |
| C88 | the tasks of `update-geofeeds` as a transition system: ready queue, semaphore, pool, downloads that end at any time | invariant over all executions (places, callbacks and connections are counted; who wakes another task ends right behind it); a weight falls with every step |
| C89 | `gmtime`, `strftime`, `strptime`, `timegm` for the one format used, the DNS reply as a list of records | numbering of the days: the next day has the next number, numbers of valid dates differ; each field is read back; induction over the aliases |
| C90 | opening the file for a command, the result of the verification as an exit code, the printed date | cases of the two checks of signatures; C26 and C89 for the date |
| C91 | the lines of `location lookup` as bytes | the lines of C55 are laid out like the specification; lines, groups of lines and labels can be told apart; two databases with the same output |
| C92 | two histories, one with more additions of networks | the most specific network of an address outside of the additions stays; C10 and C15 for both files; counterexample of C14 |
| C93 | no new definitions: lookups, enumerations, flattened and bogon enumerations of one written file | C15, C16, C28 and C29 for the same file; the most specific network of an address is unique |
| C94 | no new definitions: two exports and a lookup of one written file | C15 and C50 for the same file; the most specific network of an address is unique |
| C95 | no new definitions: two writers with the same history (`Writes`) and different keys | everything but keys and signatures stays equal through each call; then the layout of the file (C27) and lookups determined by the tree |
| C96 | no new definitions: the networks which an enumeration returns are the calls of another history | the tree made of the enumerated networks is the pruned tree they come from; clean-up does not change it again (C85); lookups are determined by the tree |
| C97 | no new definitions besides the bytes which each call may add | a clean tree has at most one node for each bit of a prefix (induction); joining halves maps the new networks into the old ones without collisions; the pool grows by at most the strings added |
| C98 | no new definitions | below the bound of C97 by C22; the violation by counting the ASes of a writer after 2^29 additions (without evaluating them) and reading the length in the header |
| C99 | no new definitions | induction over k: every round of the loop at least halves the range; the number of entries is an eighth of a 32 bit field |
| C100 | no new definitions | induction over the levels of the tree: the positions read are collected on the way down; a network record is read once, as nothing is searched further after it |

## 4. Findings (properties the code violates)

Each line: what goes wrong, where, and the theorem with the concrete witness. Everything around the
exception is proved in the `_partial` theorem of the same property.

| id | finding | code | theorem |
|----|---------|------|---------|
| C05-C07 | splitting `::/79` and `::fffe:0:0/95` fails, because one half looks like an IPv4 network; so does excluding anything below them | network.c:333-382 | `split_violated`, `exclude_violated`, `exclude_list_violated` |
| C11 | dedup skips IPv4 networks below an IPv6 network: the filter prunes the whole subtree | network-tree.c:113-160, 536-541 | `cleanup_repeat_violated_v6` |
| C11, C12 | a country code that was set and cleared leaves its second byte; `strcmp`-equal codes then compare unequal | network.c:205-219, 274-295 | `cleanup_repeat_violated_stale`, `merge_violated_stale` |
| C12 | halves of the two odd blocks are not merged | network.c:585-647 | `merge_violated_odd` |
| C14 | lookup is not a longest-prefix match: only the deepest node on the path counts (10.0.0.0/8 and 10.1.0.0/16 stored, 10.0.0.1 is not found) | database.c:848-933 | `lookup_violated` |
| C14 | `::fffe:0:0/95` is never found for IPv4 addresses | database.c:848-874 | `lookup_violated_95` |
| C16 | the enumerator keeps stale address bits; networks of /81 to /95 around `::ffff:0:0` make it fail | database.c:1353-1418 | `network_enumeration_violated` |
| C19 | 128 networks overflow the traversal stack of 256 entries | database.c:1257-1287 | `stack_overflow_violated` |
| C20 | lookup reads and writes bit 128 of a 128-bit address for stored single addresses | database.c:877-933 | `lookup_bounds_violated` |
| C21 | the boundary check wraps around: short files and overlong string pools are accepted | database.c:147-170 | `open_violated`, `reads_violated` |
| C24 | countries are searched by bisection but written in the order of addition | writer.c, database.c | `country_violated_order` |
| C24 | the record of a country without continent contains the bytes of the previous one | writer.c, country.c:175-203 | `country_violated_continent` |
| C25 | a string of 512 KiB or more is written behind the buffer of the pool | stringpool.c:45-100 | `pool_total_violated` |
| C27 | a failing check of the first signature hides a valid second one | database.c:531-703 | `verify_accepts_violated` |
| C28 | flattening fails when an odd block must be cut | database.c, see C06 | `flattened_violated` |
| C28, C46 | a flattened enumeration releases a null pointer when a network cannot be read while it looks for subnets, also in a database written by the library | database.c:1444-1446, network.c:121 | `flattened_violated_crash` |
| C29 | bogons: over-coverage, an error, a missing last gap, a missing family | database.c:1531-1670 | `bogons_violated_*` |
| C30 | summarising returns the smallest block around the range, not the range; a single address is refused | network-list.c:323-395 | `range_summary_violated`, `single_address_rejected` |
| C33 | prefixes are read modulo 2^32, text is cut after 48 characters, junk behind the number is ignored; `::ffff:1.2.3.4` gets prefix 128 and makes no network | address.c:69-120 | `parse_violated_wrap`, `parse_violated_long`, `parse_ignores_junk`, `mapped_text_no_network` |
| C37 | use after free: after a merge the prefix of the released network is read | network-tree.c:434 | `lifetime_violated`, `lifetime_violated_again` |
| C38 | padding bytes of network records are not initialised | network.c:649-660 | `order_violated_padding` |
| C39 | decrementing `::ff00:0:0` gives a wrong address | libloc/address.h:299-320 | `decrement_violated` |
| C43 | a text record that ends with the 512-byte buffer: a NUL is written behind the buffer | resolv.c | `dns_violated` |
| C44 | signing failures (`EVP_DigestSign` returns 0) count as success | writer.c | `write_signs_violated` |
| C46 | files with paths of 129 nodes or without nodes lead to accesses out of bounds | database.c:1257-1418, 877-933 | `traversal_violated`, `traversal_violated_empty` |
| C48 | without an announcement in DNS an older signed database replaces a newer one | location.in:444-474, downloader.py:187-211 | `update_violated_older` |
| C49 | the temporary file is not emptied between mirrors: an outdated or corrupt reply spoils all later ones; connection errors and unreadable files end the update | downloader.py:121-185 | `update_outdated_fatal`, `update_violated_mirror` |
| C49 | a damaged local database cannot be replaced | location.in:206-221 | `update_violated_damaged` |
| C50 | special country codes are removed from the filter: `location export A1` writes nothing | export.py:259-264 | `export_special_empty`, `export_violated` |
| C52 | taking away the name of a country leaves a dangling pointer; setting a name to itself reads freed memory | country.c:125-138, as.c:92-102 | `names_violated_null`, `names_violated_self` |
| C53 | `list-networks-by-* --format ipset > FILE` with several outputs: the header is rewritten at the start of the file and later outputs overwrite earlier ones; with `>>` the `flush` command comes last and empties the set | export.py:185-195 | `ipset_violated_file`, `ipset_violated_append` |
| C53 | sets of more than 1048576 networks cannot be loaded (fixed `maxelem`) | export.py:176 | `ipset_violated_large` |
| C53 | the format `xt_geoip` always raises an exception: `tag` is a read-only property | export.py:51, 221-223 | `xt_geoip_raises` |
| C54, C55 | Python `Database.lookup` of a text that is no address raises OSError instead of ValueError (missing `break`), so `location lookup` ends with a traceback instead of exit code 2 | python/database.c:213-219, location.in:269-273 | `py_lookup_violated`, `cli_lookup_violated` |
| C54, C55, C57 | AS numbers from 2^31 on raise OverflowError in `get_as` and `add_as` (parsed as `int`), negative ones are accepted; `location lookup` and `get-as` end with a traceback | python/database.c:146, python/writer.c:152 | `py_get_as_violated`, `py_get_as_negative`, `cli_lookup_overflow`, `cli_get_as_violated`, `py_add_as_violated` |
| C56 | Lua `get_country`, Perl `get_country_name` and `get_continent_code` use a null pointer when a valid country code is not in the database | lua/database.c:158-179, Location.xs:261-303 | `script_country_violated` |
| C56 | the text of an AS with number from 2^31 on is negative | python/as.c:71-79, lua/as.c:88-101 | `as_text_violated` |
| C57 | `Writer.add_network`, `Writer.add_country`, `Country()` report invalid texts without setting an exception (SystemError) | python/writer.c:166-219, python/country.c:47-59 | `py_add_network_violated`, `py_country_violated` |
| C57 | `Network.exclude` releases a list that was not made | python/network.c:180-193 | `py_exclude_violated` |
| C57 | reading the name of an AS without a name crashes | python/as.c:87-91 | `py_as_name_violated` |
| C58 | an address of the tables is not found because of C16 | database.c:lookup | `import_lookup_violated` |
| C59 | one announcement by an AS from 2^31 on (or such an AS with a name) makes `location-importer write` fail | location-importer.in:382, python/writer.c:152 | `import_succeeds_violated`, `import_big_asn`, `import_big_as` |
| C62 | what follows `#` in the name of an AS is lost when a dump is read; a newline in a name or in vendor or license makes the dump unreadable | location.in:347-367 | `dump_violated_name`, `dump_violated_vendor` |
| C66 | an entry without a country, of the smallest prefix length of its source, hides the country of the entry of another source around it | location-importer.in:_process_source | `copied_countries_violated`, `source_countries_violated` |
| C67 | a line of the statistics with a number of IPv4 addresses that is not a power of two (or does not divide the first address) gives the country to other addresses | location-importer.in:1556-1558 | `statistics_violated` |
| C67 | a number of addresses that is not positive ends the import of the source with an exception | location-importer.in:1556-1558 | `statistics_zero` |
| C70 | one object with an invalid `inet6num`, a reversed range or a range over two families (`object_faults`), an AS number from 2^31 on or an organisation without a name: the source as a whole is rolled back | location-importer.in:1313-1447, 1306-1311, 1477-1496 | `object_faults`, `update_faulty` |
| C71 | `loc_network_list_summarize` keeps its own reference to every network it creates: bogons are never released | network-list.c:366-392 | `bogons_never_released`, `bogons_violated_leak` |
| C72 | the listing of an AS, country or flag is not flattened: it covers addresses that lookups assign to another network inside | location.in:512-562 | `list_by_as_violated_nested` |
| C72 | `list-networks-by-as` reduces the number to 32 bits: 4295032296 lists AS 65000; more than 64 bits give a `SystemError` | python/database.c:397 | `list_by_as_violated_number`, `list_by_as_refused` |
| C72 | the `ValueError` "Invalid country code" is unreachable, an invalid code gives a `SystemError` and exit code 1 | python/database.c:342-350, country.c:52-55 | `list_by_country_violated_code` |
| C72 | `list-countries --show-continent` stops with a `TypeError` at a country without continent | location.in:501-508 | `list_countries_violated` |
| C72 | `export` with only invalid arguments (`export de`) exports everything | location.in:592-599 | `export_arguments_violated` |
| C72 | `list-bogons --format ipset` can print a block twice (0.0.0.0/1 if only 100.0.0.0/8 has a country), so that `ipset restore` fails | location.in:564-571, database.c:1531-1640 | `list_bogons_violated_ipset` |
| C73 | setting the string of an enumerator twice leaks the former string | database.c:1149-1153 | `objects_string_violated` |
| C73 | `search_networks` from Python with an invalid country code (or failing otherwise) never releases the enumerator, hence neither the database, its mapping nor its file | python/database.c:320-400 | `objects_search_violated` |
| C73 | `dup` returning 0 is taken for an error; then, and if `fdopen` fails, the descriptor leaks | database.c:405-415 | `objects_descriptor_violated` |
| C73 | running out of memory makes the library follow NULL: `strdup` in `loc_database_enumerator_set_string`, the root in `loc_network_tree_new`, `realloc` in `loc_stringpool_grow` (its error becomes offset 1) | database.c:1150, network-tree.c:55-90, stringpool.c:45-60 | `objects_memory_violated` |
| C73 | `Writer(None)` gives back a reference to `None` it does not own; calling `Database.__init__` again leaks the first database | python/writer.c, python/database.c | `python_none_violated`, `python_init_violated` |
| C74 | `AS(1) != AS(1)` is true (like for networks and countries): `Py_NE` is not handled, so identities are compared; `<=`, `>=` raise a `TypeError` | python/as.c:116-134, python/network.c:262-280, python/country.c:135-153 | `python_ne_violated`, `python_le_violated` |
| C74 | networks have `tp_richcompare` but no `tp_hash`: they cannot be in sets or dictionaries | python/network.c:394-409 | `python_hash_violated` |
| C74 | `AS(n)` refuses the upper half of the AS numbers and takes negative numbers | python/as.c:50 | `python_as_violated` |
| C74 | in Lua ASes and networks are equal only to themselves; comparing a country with another object raises an error | lua/as.c, lua/network.c, lua/country.c:88-96 | `lua_eq_violated`, `lua_eq_violated_types` |
| C75 | a second route to a network (BIRD prints it without the network) is taken for a network named "unicast": PostgreSQL refuses it and nothing is imported | location-importer.in:1654, 1694-1698 | `announcements_violated_second` |
| C75 | so does a protocol whose name begins with "AS" | location-importer.in:1654 | `announcements_violated_protocol` |
| C75 | error replies (8001 …), a closed connection, and an empty line make the importer wait for ever | location-importer.in:1735-1768 | `announcements_violated_error`, `announcements_violated_closed`, `announcements_violated_empty` |
| C75 | networks around special-purpose ones (192.0.0.0/8) are kept | location-importer.in:1603-1634 | `announcements_violated_around` |
| C76 | `lookup_country_code` returns the empty string, not undef, for networks without a country | perl/Location.xs:181-183 | `perl_lookup_violated` |
| C76 | text behind a NUL is ignored in Lua and Perl | lua/database.c:187, perl/Location.xs:166 | `script_lookup_violated` |
| C76 | `verify` dies instead of returning false | perl/Location.xs:75-81 | `perl_verify_violated` |
| C77 | an error page instead of a list of Spamhaus counts as data: all earlier rows are lost, exit code 0 | location-importer.in:2341-2395 | `feeds_violated_page` |
| C77 | one entry of AWS that is no network spoils the whole feed (`except ValuleError`) | location-importer.in:2284 | `feeds_violated_entry` |
| C77 | a network listed twice by Spamhaus spoils the whole feed | location-importer.in:2380-2391 | `feeds_violated_twice` |
| C78 | any exception besides HTTP errors, bad URLs and timeouts (`http.client.RemoteDisconnected`, `IncompleteRead`, a damaged gzip stream, NUL in a text) leaves the task group: all other geofeeds are not fetched, old data is not removed | location-importer.in:1826-1849, 1859-1994 | `geofeeds_violated` |
| C79 | codes are not checked: an indented comment becomes the country `#`, and `write` raises an exception | location-importer.in:2476-2489 | `countries_violated` |
| C80 | no result of `fwrite` and `fflush` is checked besides that of the header, where a short write prints a message but returns `r`, which is 0: without keys the function reports success whatever was written | writer.c:645-786, esp. 771-775 | `writing_blind`, `writing_short`, `writing_headerless` |
| C80 | `align_page_boundary` repeats until `fwrite` has written: on a stream that refuses every byte (opened for reading, unbuffered on a full disk) it never ends.  With buffering, the C library drops its buffer after a failed flush, so the loop may end there by luck | writer.c:283-290 | `writing_hangs`, `writing_readonly` |
| C81 | an unknown or empty value of `LOC_LOG`, blanks in front of a name and numbers from 2^31 on turn all messages off, also those about errors; `loc_set_log_fn` only prints a message | libloc.c:61-79, 125-130 | `level_unknown`, `level_violated` |
| C83 | the loop over the file asks for `feof` only: when reads keep failing, as on a damaged disk or a network file system, it never ends (the loop that signs a file is the same) | database.c:627-642, writer.c:604-627 | `verify_endless_violated` |
| C83 | the result of `dup` is tested with `!fd`: an error (-1) is only noticed by `fdopen`, and the valid descriptor 0 (standard input was closed) is taken for an error | database.c:404-409 | `open_descriptor_violated` |
| C84 | halves whose union is taken when they are looked at are not looked at again once that union is joined itself: 10.0.0.0/9 A, 10.0.0.0/10 B, 10.64.0.0/10 B, 10.128.0.0/9 A keep both /10 B | network-tree.c:381-393 | `cleanup_unjoined_violated` |
| C84 | prefixes of IPv4 and IPv6 networks are compared with each other when the list of candidates is shortened: with 0.0.0.0/0 stored, ::/8 and 100::/8 are not joined | network-tree.c:434-437 | `cleanup_unjoined_violated_v6` |
| C84 | after a join the prefix of the network is read from memory that may be freed (C37); if 0 is read, candidates are lost and halves stay apart | network-tree.c:434 | `cleanup_unjoined_violated_freed` |
| C85 | the pool never finds the empty string, so each write stores another one for every AS without a name; the second file has other offsets and a longer pool | stringpool.c:172-175 | `write_again_violated_name` |
| C85 | halves left by the first clean-up (C84) are joined by the second one, so the second file has other networks | network-tree.c:381-393 | `write_again_violated_join` |
| C86 | `read` of `http.client` returns short data without an error when the connection is closed before the announced length; `retrieve` does not compare lengths, so truncated (even empty) documents are imported | downloader.py:231-237 | `retrieve_violated_cut`, `retrieve_violated_empty` |
| C86 | imports of whois data and feeds pass no timeout, so a silent server stops them for ever | downloader.py:212, location-importer.in:936, 2204 | `retrieve_violated_silent` |
| C87 | `set_proxy` is called for both protocols whatever the URL is; with both proxies set an https URL is requested as plain http | downloader.py:83-85 | `https_plain_violated`, `https_detour_violated`, `http_request_violated` |
| C91 | names are printed as they are: an AS name with a newline can add lines such as "Anycast: yes" to the output of `location lookup` | location.in:286-305 | `lookup_text_violated` |
| C92 | adding a network makes addresses beside it unfindable | database.c, see C14 | `lookup_local_violated` |
| C93 | an address can be in the flattened enumeration and not be found, or be found in a country and be in a bogon | database.c, see C14 and C29 | `lookup_flattened_violated`, `lookup_bogon_violated` |
| C94 | an address that is shown as an anonymous proxy is not on the list for A1 | location.in, export.py, see C50 | `export_lookup_violated` |
| C96 | 10.0.0.0/10 and 10.64.0.0/10 stored inside of 10.0.0.0/9 become one network in the copy | network-tree.c:361-487, see C84 | `copy_same_violated` |
| C98 | 2^29 ASes fill 4 GiB: the length of their section is stored as 0, the write succeeds and no AS is found | writer.c:308, 335 (and 293-300, 397, 493-517, 527-546) | `large_refused_violated` |

## 5. Tests of the theorems

`seeded/LOG.jsonl` lists edits of the model in a scratch copy, each a realistic bug, and the theorems
that no longer proved. Edits that survived are listed with the reason.
