import Verif.Props.Address
import Verif.Props.Again
import Verif.Props.Agree
import Verif.Props.Announce
import Verif.Props.Arr
import Verif.Props.Bindings
import Verif.Props.Bogon
import Verif.Props.Cli
import Verif.Props.CliText
import Verif.Props.Commands
import Verif.Props.Compare
import Verif.Props.Copy
import Verif.Props.Dates
import Verif.Props.Depends
import Verif.Props.Dump
import Verif.Props.Enum
import Verif.Props.EnumLife
import Verif.Props.ExcludeOdd
import Verif.Props.Export
import Verif.Props.ExportAgree
import Verif.Props.Feeds
import Verif.Props.File
import Verif.Props.FlatEnds
import Verif.Props.Flatten
import Verif.Props.Formats
import Verif.Props.Geofeeds
import Verif.Props.Import
import Verif.Props.Join
import Verif.Props.Keys
import Verif.Props.Large
import Verif.Props.Lifetime
import Verif.Props.Listing
import Verif.Props.ListingBogon
import Verif.Props.Local
import Verif.Props.Logging
import Verif.Props.Lookup
import Verif.Props.Names
import Verif.Props.Network
import Verif.Props.NetworkList
import Verif.Props.Networks
import Verif.Props.NetworksSound
import Verif.Props.Objects
import Verif.Props.Order
import Verif.Props.ReadIo
import Verif.Props.Resolv
import Verif.Props.Retrieve
import Verif.Props.Safe
import Verif.Props.SafeLookup
import Verif.Props.Scripts
import Verif.Props.Signature
import Verif.Props.Size
import Verif.Props.Steps
import Verif.Props.Stringpool
import Verif.Props.Summarize
import Verif.Props.Tasks
import Verif.Props.Text
import Verif.Props.TextExact
import Verif.Props.Tree
import Verif.Props.Trie
import Verif.Props.Update
import Verif.Props.Whois
import Verif.Props.WriteIo
/-
Prints the axioms every claimed theorem depends on (generated by tools/gen_manifest.py).
-/
#print axioms Loc.Props.cmp_order
#print axioms Loc.Props.cmp_total
#print axioms Loc.Props.cmp_zero_same
#print axioms Loc.Props.new_accepts
#print axioms Loc.Props.new_canonical
#print axioms Loc.Props.built_ok
#print axioms Loc.Props.matches_address_iff
#print axioms Loc.Props.matches_address_prefix
#print axioms Loc.Props.is_subnet_iff
#print axioms Loc.Props.overlaps_iff
#print axioms Loc.Props.overlaps_nested
#print axioms Loc.Props.is_subnet_order
#print axioms Loc.Props.split_exact_partial
#print axioms Loc.Props.split_host
#print axioms Loc.Props.split_odd
#print axioms Loc.Props.split_violated
#print axioms Loc.Props.exclude_exact_partial
#print axioms Loc.Props.exclude_odd
#print axioms Loc.Props.exclude_violated
#print axioms Loc.Props.exclude_not_inside
#print axioms Loc.Props.exclude_list_exact_partial
#print axioms Loc.Props.exclude_list_no_subnet
#print axioms Loc.Props.exclude_list_fails_iff
#print axioms Loc.Props.exclude_list_violated
#print axioms Loc.Props.list_refines_set
#print axioms Loc.Props.list_refines_set_empty
#print axioms Loc.Props.merge_sound
#print axioms Loc.Props.merge_complete_partial
#print axioms Loc.Props.merge_violated_odd
#print axioms Loc.Props.merge_violated_stale
#print axioms Loc.Props.bogon_complete_partial
#print axioms Loc.Props.bogon_exact_partial
#print axioms Loc.Props.bogons_violated_overlap
#print axioms Loc.Props.bogons_violated_error
#print axioms Loc.Props.bogons_violated_missing
#print axioms Loc.Props.bogons_violated_family
#print axioms Loc.Props.summarize_rejects
#print axioms Loc.Props.single_address_rejected
#print axioms Loc.Props.range_summary_covers_partial
#print axioms Loc.Props.summarize_same_half
#print axioms Loc.Props.summarize_across
#print axioms Loc.Props.range_summary_exact_iff
#print axioms Loc.Props.range_summary_violated
#print axioms Loc.Props.set_country_code_exact
#print axioms Loc.Props.country_code_always_valid
#print axioms Loc.Props.match_special
#print axioms Loc.Props.match_valid
#print axioms Loc.Props.match_invalid_is_truthy
#print axioms Loc.Props.increment_exact
#print axioms Loc.Props.decrement_exact_partial
#print axioms Loc.Props.decrement_violated
#print axioms Loc.Props.increment_decrement
#print axioms Loc.Props.subtract_exact
#print axioms Loc.Props.subtract_families
#print axioms Loc.Props.get_bit_exact
#print axioms Loc.Props.set_bit_exact
#print axioms Loc.Props.common_bits_exact
#print axioms Loc.Props.bit_length_exact
#print axioms Loc.Props.bit_length_needs_ctz
#print axioms Loc.Props.reach_wf
#print axioms Loc.Props.add_network_set
#print axioms Loc.Props.stored_distinct
#print axioms Loc.Props.cleanup_preserves_lookup
#print axioms Loc.Props.write_preserves_lookup
#print axioms Loc.Props.cleanup_no_repeat_partial
#print axioms Loc.Props.cleanup_repeat_violated_v6
#print axioms Loc.Props.cleanup_repeat_violated_stale
#print axioms Loc.Props.pool_stable_partial
#print axioms Loc.Props.pool_distinct
#print axioms Loc.Props.pool_total_partial
#print axioms Loc.Props.pool_overflow
#print axioms Loc.Props.pool_total_violated
#print axioms Loc.Props.as_roundtrip
#print axioms Loc.Props.country_sound
#print axioms Loc.Props.country_roundtrip_partial
#print axioms Loc.Props.country_violated_order
#print axioms Loc.Props.country_violated_continent
#print axioms Loc.Props.metadata_roundtrip
#print axioms Loc.Props.layout_wellformed
#print axioms Loc.Props.open_requires_magic
#print axioms Loc.Props.open_written
#print axioms Loc.Props.write_refuses_unknown
#print axioms Loc.Props.write_total
#print axioms Loc.Props.verify_message_covers
#print axioms Loc.Props.verify_only_valid
#print axioms Loc.Props.verify_unsigned
#print axioms Loc.Props.verify_written_unsigned
#print axioms Loc.Props.verify_accepts_signed_partial
#print axioms Loc.Props.verify_accepts_violated
#print axioms Loc.Props.trie_encodes
#print axioms Loc.Props.record_roundtrip
#print axioms Loc.Props.write_signs_partial
#print axioms Loc.Props.write_signs_violated
#print axioms Loc.Props.lookup_exact
#print axioms Loc.Props.lookup_longest_prefix_partial
#print axioms Loc.Props.lookup_longest_prefix_disjoint
#print axioms Loc.Props.lookup_misses
#print axioms Loc.Props.lookup_violated
#print axioms Loc.Props.lookup_violated_95
#print axioms Loc.Props.lookup_sound
#print axioms Loc.Props.lookup_sound_added
#print axioms Loc.Props.lookup_oob_iff
#print axioms Loc.Props.lookup_bounds_partial
#print axioms Loc.Props.lookup_bounds_violated
#print axioms Loc.Props.network_enumeration_partial
#print axioms Loc.Props.network_enumeration_sound
#print axioms Loc.Props.network_enumeration_violated
#print axioms Loc.Props.filtered_enumeration_partial
#print axioms Loc.Props.enumeration_terminates
#print axioms Loc.Props.reads_terminate
#print axioms Loc.Props.index_enumerations_end
#print axioms Loc.Props.flattened_terminates
#print axioms Loc.Props.bogons_terminate
#print axioms Loc.Props.stack_overflow_iff
#print axioms Loc.Props.stack_bounds_partial
#print axioms Loc.Props.stack_overflow_violated
#print axioms Loc.Props.as_enumeration
#print axioms Loc.Props.country_enumeration_partial
#print axioms Loc.Props.reads_inside_partial
#print axioms Loc.Props.open_outside_iff
#print axioms Loc.Props.vendor_outside_iff
#print axioms Loc.Props.written_strings_end
#print axioms Loc.Props.open_violated
#print axioms Loc.Props.reads_violated
#print axioms Loc.Props.lookup_outside_iff
#print axioms Loc.Props.traversal_bounds_partial
#print axioms Loc.Props.traversal_total_partial
#print axioms Loc.Props.traversal_violated
#print axioms Loc.Props.traversal_violated_empty
#print axioms Loc.Props.flattened_violated_crash
#print axioms Loc.Props.flattened_partition_partial
#print axioms Loc.Props.flattened_sound
#print axioms Loc.Props.flattened_violated
#print axioms Loc.Props.reverse_pointer_inet6
#print axioms Loc.Props.reverse_pointer_inet
#print axioms Loc.Props.reverse_pointer_injective
#print axioms Loc.Props.string_stays_valid
#print axioms Loc.Props.string_overwritten
#print axioms Loc.Props.parse_accepts_iff
#print axioms Loc.Props.parse_refuses
#print axioms Loc.Props.parse_default_prefix
#print axioms Loc.Props.parse_prefix_exact
#print axioms Loc.Props.begins_with_some
#print axioms Loc.Props.parse_prefix_partial
#print axioms Loc.Props.parse_violated_wrap
#print axioms Loc.Props.parse_violated_long
#print axioms Loc.Props.parse_ignores_junk
#print axioms Loc.Props.mapped_text_no_network
#print axioms Loc.Props.network_string_roundtrip
#print axioms Loc.Props.order_independent_partial
#print axioms Loc.Props.order_violated_padding
#print axioms Loc.Props.dns_inside_partial
#print axioms Loc.Props.dns_violated
#print axioms Loc.Props.lifetime_partial
#print axioms Loc.Props.lifetime_no_write
#print axioms Loc.Props.lifetime_violated
#print axioms Loc.Props.lifetime_violated_again
#print axioms Loc.Props.update_verified
#print axioms Loc.Props.update_newer_partial
#print axioms Loc.Props.update_violated_older
#print axioms Loc.Props.update_mirror_partial
#print axioms Loc.Props.update_outdated_fatal
#print axioms Loc.Props.update_violated_mirror
#print axioms Loc.Props.update_violated_damaged
#print axioms Loc.Props.export_exact_partial
#print axioms Loc.Props.export_sound
#print axioms Loc.Props.export_outputs
#print axioms Loc.Props.export_special_empty
#print axioms Loc.Props.export_violated
#print axioms Loc.Props.network_list_memory
#print axioms Loc.Props.as_list_memory
#print axioms Loc.Props.country_list_memory
#print axioms Loc.Props.pop_first_diverges
#print axioms Loc.Props.names_partial
#print axioms Loc.Props.names_violated_null
#print axioms Loc.Props.names_violated_self
#print axioms Loc.Props.list_format
#print axioms Loc.Props.nftables_format
#print axioms Loc.Props.ipset_format_partial
#print axioms Loc.Props.ipset_outputs_partial
#print axioms Loc.Props.export_print_partial
#print axioms Loc.Props.ipset_violated_file
#print axioms Loc.Props.ipset_violated_append
#print axioms Loc.Props.ipset_violated_large
#print axioms Loc.Props.xt_geoip_raises
#print axioms Loc.Props.py_get_as_partial
#print axioms Loc.Props.py_get_as_violated
#print axioms Loc.Props.py_get_as_negative
#print axioms Loc.Props.py_get_country_refuses
#print axioms Loc.Props.py_get_country_partial
#print axioms Loc.Props.py_get_country_sound
#print axioms Loc.Props.py_lookup_partial
#print axioms Loc.Props.py_lookup_violated
#print axioms Loc.Props.cli_lookup_partial
#print axioms Loc.Props.cli_lookup_violated
#print axioms Loc.Props.cli_lookup_overflow
#print axioms Loc.Props.cli_get_as_partial
#print axioms Loc.Props.cli_get_as_violated
#print axioms Loc.Props.script_as
#print axioms Loc.Props.script_country_partial
#print axioms Loc.Props.script_country_violated
#print axioms Loc.Props.script_country_invalid
#print axioms Loc.Props.as_text_partial
#print axioms Loc.Props.as_text_violated
#print axioms Loc.Props.py_network
#print axioms Loc.Props.py_add_network_partial
#print axioms Loc.Props.py_add_network_violated
#print axioms Loc.Props.py_country_partial
#print axioms Loc.Props.py_country_violated
#print axioms Loc.Props.py_set_country_code
#print axioms Loc.Props.py_set_asn
#print axioms Loc.Props.py_add_as_partial
#print axioms Loc.Props.py_add_as_violated
#print axioms Loc.Props.py_exclude_partial
#print axioms Loc.Props.py_exclude_violated
#print axioms Loc.Props.py_as_name_violated
#print axioms Loc.Props.import_lookup_partial
#print axioms Loc.Props.import_lookup_unknown
#print axioms Loc.Props.import_lookup_violated
#print axioms Loc.Props.import_succeeds_partial
#print axioms Loc.Props.import_succeeds_violated
#print axioms Loc.Props.import_big_asn
#print axioms Loc.Props.import_big_as
#print axioms Loc.Props.import_bad_country
#print axioms Loc.Props.import_ases
#print axioms Loc.Props.import_countries
#print axioms Loc.Props.import_metadata
#print axioms Loc.Props.blocks_exact
#print axioms Loc.Props.file_read
#print axioms Loc.Props.file_meaning_unique
#print axioms Loc.Props.dump_reads_back_partial
#print axioms Loc.Props.dump_violated_name
#print axioms Loc.Props.dump_violated_vendor
#print axioms Loc.Props.overrides_exact
#print axioms Loc.Props.overrides_success
#print axioms Loc.Props.dump_as_overrides_partial
#print axioms Loc.Props.update_cron_recent
#print axioms Loc.Props.update_cron_other
#print axioms Loc.Props.copied_countries_partial
#print axioms Loc.Props.copied_countries_first
#print axioms Loc.Props.copied_entries
#print axioms Loc.Props.copied_countries_violated
#print axioms Loc.Props.statistics_line
#print axioms Loc.Props.statistics_exact_partial
#print axioms Loc.Props.statistics_violated
#print axioms Loc.Props.statistics_zero
#print axioms Loc.Props.object_networks
#print axioms Loc.Props.range_networks
#print axioms Loc.Props.object_range
#print axioms Loc.Props.object_faults
#print axioms Loc.Props.source_names
#print axioms Loc.Props.parts_exist
#print axioms Loc.Props.update_whole
#print axioms Loc.Props.update_done
#print axioms Loc.Props.source_processed
#print axioms Loc.Props.source_entries
#print axioms Loc.Props.source_countries_partial
#print axioms Loc.Props.source_countries_violated
#print axioms Loc.Props.update_faulty
#print axioms Loc.Props.exclude_lifetime
#print axioms Loc.Props.exclude_list_lifetime
#print axioms Loc.Props.enumeration_lifetime
#print axioms Loc.Props.enumeration_no_leak
#print axioms Loc.Props.enumeration_start
#print axioms Loc.Props.enumeration_objects
#print axioms Loc.Props.enumeration_kept
#print axioms Loc.Props.bogon_lifetime_partial
#print axioms Loc.Props.bogons_never_released
#print axioms Loc.Props.bogons_violated_leak
#print axioms Loc.Props.list_by_as_partial
#print axioms Loc.Props.list_by_as_number
#print axioms Loc.Props.list_by_as_refused
#print axioms Loc.Props.list_by_as_violated_number
#print axioms Loc.Props.list_by_as_violated_nested
#print axioms Loc.Props.list_by_country_partial
#print axioms Loc.Props.list_by_country_violated_code
#print axioms Loc.Props.list_by_flags_partial
#print axioms Loc.Props.list_by_flags_none
#print axioms Loc.Props.list_bogons_partial
#print axioms Loc.Props.list_bogons_ipset_partial
#print axioms Loc.Props.list_bogons_violated_ipset
#print axioms Loc.Props.search_as_partial
#print axioms Loc.Props.list_countries_partial
#print axioms Loc.Props.list_countries_violated
#print axioms Loc.Props.list_format_refused
#print axioms Loc.Props.list_failure
#print axioms Loc.Props.export_objects
#print axioms Loc.Props.export_arguments_partial
#print axioms Loc.Props.export_arguments_violated
#print axioms Loc.Props.objects_never_stale
#print axioms Loc.Props.objects_exact_partial
#print axioms Loc.Props.objects_released_partial
#print axioms Loc.Props.objects_local
#print axioms Loc.Props.objects_string_violated
#print axioms Loc.Props.objects_search_violated
#print axioms Loc.Props.objects_descriptor_violated
#print axioms Loc.Props.objects_memory_violated
#print axioms Loc.Props.python_none_violated
#print axioms Loc.Props.python_init_violated
#print axioms Loc.Props.python_eq
#print axioms Loc.Props.python_order
#print axioms Loc.Props.python_order_total
#print axioms Loc.Props.python_sorted
#print axioms Loc.Props.python_hash
#print axioms Loc.Props.python_set_partial
#print axioms Loc.Props.python_ne
#print axioms Loc.Props.python_ne_violated
#print axioms Loc.Props.python_le_violated
#print axioms Loc.Props.python_hash_violated
#print axioms Loc.Props.python_unmade_violated
#print axioms Loc.Props.python_as_partial
#print axioms Loc.Props.python_as_violated
#print axioms Loc.Props.python_as_number_partial
#print axioms Loc.Props.python_as_number_violated
#print axioms Loc.Props.lua_eq_partial
#print axioms Loc.Props.lua_eq_violated
#print axioms Loc.Props.lua_eq_violated_types
#print axioms Loc.Props.announce_lines
#print axioms Loc.Props.announcements_exact_partial
#print axioms Loc.Props.announcements_purge
#print axioms Loc.Props.announcements_refused
#print axioms Loc.Props.announcements_empty_number
#print axioms Loc.Props.announcements_violated_second
#print axioms Loc.Props.announcements_violated_protocol
#print axioms Loc.Props.announcements_violated_error
#print axioms Loc.Props.announcements_violated_closed
#print axioms Loc.Props.announcements_violated_empty
#print axioms Loc.Props.announcements_violated_around
#print axioms Loc.Props.script_lookup_partial
#print axioms Loc.Props.script_lookup_refused
#print axioms Loc.Props.perl_flag_refused
#print axioms Loc.Props.lua_properties
#print axioms Loc.Props.lua_network_new
#print axioms Loc.Props.lua_subnets_partial
#print axioms Loc.Props.lua_reverse_pointer
#print axioms Loc.Props.perl_countries
#print axioms Loc.Props.perl_countries_all
#print axioms Loc.Props.lua_networks_partial
#print axioms Loc.Props.lua_networks_all
#print axioms Loc.Props.script_metadata
#print axioms Loc.Props.script_verify
#print axioms Loc.Props.script_lookup_violated
#print axioms Loc.Props.perl_lookup_violated
#print axioms Loc.Props.perl_verify_violated
#print axioms Loc.Props.feeds_exact_partial
#print axioms Loc.Props.feeds_unique
#print axioms Loc.Props.feeds_violated_page
#print axioms Loc.Props.feeds_violated_entry
#print axioms Loc.Props.feeds_violated_twice
#print axioms Loc.Props.geofeeds_exact_partial
#print axioms Loc.Props.geofeeds_file
#print axioms Loc.Props.geofeeds_clean
#print axioms Loc.Props.geofeeds_used
#print axioms Loc.Props.geofeeds_violated
#print axioms Loc.Props.demo_geofeeds
#print axioms Loc.Props.demo_fatal
#print axioms Loc.Props.countries_exact_partial
#print axioms Loc.Props.countries_violated
#print axioms Loc.Props.writing_exact_partial
#print axioms Loc.Props.writing_blind
#print axioms Loc.Props.writing_short
#print axioms Loc.Props.writing_hangs
#print axioms Loc.Props.writing_readonly
#print axioms Loc.Props.writing_headerless
#print axioms Loc.Props.demo_writing
#print axioms Loc.Props.level_exact_partial
#print axioms Loc.Props.level_unknown
#print axioms Loc.Props.messages_exact
#print axioms Loc.Props.level_violated
#print axioms Loc.Props.dump_safe
#print axioms Loc.Props.dump_exact
#print axioms Loc.Props.verify_reads
#print axioms Loc.Props.verify_reads_only_valid
#print axioms Loc.Props.verify_reads_ends_partial
#print axioms Loc.Props.verify_disk
#print axioms Loc.Props.verify_endless_violated
#print axioms Loc.Props.open_reads_partial
#print axioms Loc.Props.open_descriptor_violated
#print axioms Loc.Props.cleanup_joins_partial
#print axioms Loc.Props.cleanup_joins_flat
#print axioms Loc.Props.cleanup_unjoined_violated
#print axioms Loc.Props.cleanup_unjoined_violated_v6
#print axioms Loc.Props.cleanup_unjoined_violated_freed
#print axioms Loc.Props.write_again_partial
#print axioms Loc.Props.write_again_flat
#print axioms Loc.Props.cleanup_again_partial
#print axioms Loc.Props.cleanup_fixed_joined
#print axioms Loc.Props.write_again_violated_name
#print axioms Loc.Props.write_again_violated_join
#print axioms Loc.Props.retrieve_exact_partial
#print axioms Loc.Props.retrieve_chunked
#print axioms Loc.Props.retrieve_part
#print axioms Loc.Props.retrieve_compressed
#print axioms Loc.Props.retrieve_violated_cut
#print axioms Loc.Props.retrieve_violated_empty
#print axioms Loc.Props.retrieve_violated_silent
#print axioms Loc.Props.retrieve_geofeed_partial
#print axioms Loc.Props.retrieve_geofeed_silent
#print axioms Loc.Props.https_request_partial
#print axioms Loc.Props.http_request_iff
#print axioms Loc.Props.https_plain_violated
#print axioms Loc.Props.https_detour_violated
#print axioms Loc.Props.http_request_violated
#print axioms Loc.Props.demo_proxies
#print axioms Loc.Props.geofeed_tasks
#print axioms Loc.Props.geofeed_connection_kept
#print axioms Loc.Props.geofeed_tasks_end
#print axioms Loc.Props.date_text
#print axioms Loc.Props.date_read
#print axioms Loc.Props.date_whole
#print axioms Loc.Props.date_injective
#print axioms Loc.Props.reply_read
#print axioms Loc.Props.date_discovered
#print axioms Loc.Props.verify_exit
#print axioms Loc.Props.version_printed
#print axioms Loc.Props.version_late
#print axioms Loc.Props.lookup_text_partial
#print axioms Loc.Props.lookup_text_read
#print axioms Loc.Props.shows_plain
#print axioms Loc.Props.lookup_text_violated
#print axioms Loc.Props.get_as_text_partial
#print axioms Loc.Props.lookup_local_partial
#print axioms Loc.Props.lookup_local_found
#print axioms Loc.Props.lookup_local_violated
#print axioms Loc.Props.lookup_listed
#print axioms Loc.Props.lookup_flattened
#print axioms Loc.Props.lookup_bogon_partial
#print axioms Loc.Props.lookup_flattened_violated
#print axioms Loc.Props.lookup_bogon_violated
#print axioms Loc.Props.export_apart
#print axioms Loc.Props.export_lookup
#print axioms Loc.Props.export_lookup_violated
#print axioms Loc.Props.keys_only_signatures
#print axioms Loc.Props.keys_same_lookups
#print axioms Loc.Props.keys_same_answers
#print axioms Loc.Props.copy_same_partial
#print axioms Loc.Props.copy_allowed
#print axioms Loc.Props.copy_same_violated
#print axioms Loc.Props.size_bound
#print axioms Loc.Props.size_total
#print axioms Loc.Props.size_practical
#print axioms Loc.Props.large_refused_partial
#print axioms Loc.Props.large_refused_violated
#print axioms Loc.Props.as_search_steps
#print axioms Loc.Props.country_search_steps
#print axioms Loc.Props.search_steps_any
#print axioms Loc.Props.lookup_depends
