{
 "claims": [
  {
   "property": "C01",
   "status": "proved",
   "theorems": [
    "Speed.C01_sections",
    "Speed.C01_records",
    "Speed.C01_exact"
   ],
   "note": "Sections and records tile the file. Registry obtained by any history of constructor/registry/value calls; Publishable (texts within 256 bytes, no empty domain, domain objects registered) and counts below 2^31."
  },
  {
   "property": "C02",
   "status": "proved",
   "theorems": [
    "Speed.C02_terminates"
   ],
   "note": "All schedules of all goroutines of Start and all map orders: no panic, no deadlock, no infinite run."
  },
  {
   "property": "C03",
   "status": "proved",
   "theorems": [
    "Speed.C03_dump_describes"
   ],
   "note": "Dump of the written file under every schedule of its goroutines."
  },
  {
   "property": "C04",
   "status": "proved",
   "theorems": [
    "Speed.C04_no_half_written"
   ],
   "note": "Reader takes a snapshot of the bytes at any moment; generation number (Unix time) is not 0."
  },
  {
   "property": "C05",
   "status": "partial",
   "theorems": [
    "Speed.C05_file_follows_partial",
    "Speed.C05_set",
    "Speed.C05_refuted"
   ],
   "note": "Proved for strings of at most 256 bytes; false for longer ones (C05_refuted)."
  },
  {
   "property": "C06",
   "status": "proved",
   "theorems": [
    "Speed.C06_one_value"
   ],
   "note": "Strings of at most 256 bytes."
  },
  {
   "property": "C07",
   "status": "proved",
   "theorems": [
    "Speed.C07_stored",
    "Speed.C07_new",
    "Speed.C07_set",
    "Speed.C07_typed",
    "Speed.C07_accepts_int",
    "Speed.C07_accepts_uint"
   ],
   "note": "Float64 into Float: nearest float32, ties to even, proved from the bit-level conversion."
  },
  {
   "property": "C08",
   "status": "partial",
   "theorems": [
    "Speed.C08_rejected_partial",
    "Speed.C08_unpublished",
    "Speed.C08_refuted"
   ],
   "note": "False for strings that do not fit (C08_refuted): the slot is zeroed before the failing write. Proved for everything else."
  },
  {
   "property": "C09",
   "status": "proved",
   "theorems": [
    "Speed.Dump.C09_round_trip"
   ],
   "note": ""
  },
  {
   "property": "C10",
   "status": "partial",
   "theorems": [
    "Speed.C10_write_partial",
    "Speed.C10_writeString_partial",
    "Speed.C10_writeVal",
    "Speed.C10_exact",
    "Speed.C10_refuted"
   ],
   "note": "False for offsets whose sum with the length wraps around 2^63 (C10_refuted: panic instead of error). Proved for all others."
  },
  {
   "property": "C11",
   "status": "proved",
   "theorems": [
    "Speed.C11_disjoint_writes"
   ],
   "note": "Any number of writers with pairwise disjoint ranges, any interleaving of their byte stores."
  },
  {
   "property": "C12",
   "status": "proved",
   "theorems": [
    "Speed.C12_counts"
   ],
   "note": "All histories of registry calls and value updates, successful or failed."
  },
  {
   "property": "C13",
   "status": "partial",
   "theorems": [
    "Speed.C13_metric_call",
    "Speed.C13_duplicate",
    "Speed.C13_hasMetric",
    "Speed.C13_hasIndom_partial",
    "Speed.C13_refuted",
    "Speed.C13_refuted_duplicate"
   ],
   "note": "Metrics: proved. Domains: false, because a failing RegisterString can leave a new domain behind (C13_refuted); proved for histories in which no RegisterString failed."
  },
  {
   "property": "C14",
   "status": "proved",
   "theorems": [
    "Speed.C14_frozen"
   ],
   "note": "All histories of sequential calls, any number of clients of the registry, any failures of system calls."
  },
  {
   "property": "C15",
   "status": "partial",
   "theorems": [
    "Speed.C15_failed_partial",
    "Speed.C15_refuted"
   ],
   "note": "False for RegisterString naming a new domain (C15_refuted). Proved for all other calls, and the exact leftover is proved for RegisterString."
  },
  {
   "property": "C16",
   "status": "proved",
   "theorems": [
    "Speed.C16_version_iff",
    "Speed.C16_names_stored"
   ],
   "note": ""
  },
  {
   "property": "C17",
   "status": "proved",
   "theorems": [
    "Speed.C17_hash",
    "Speed.C17_ids",
    "Speed.C17_cluster"
   ],
   "note": ""
  },
  {
   "property": "C18",
   "status": "partial",
   "theorems": [
    "Speed.C18_ids_partial",
    "Speed.C18_one_byte_partial",
    "Speed.C18_refuted",
    "Speed.C18_refuted_large"
   ],
   "note": "False: 'c' and 'ib' collide; every registry with more than 1024 metrics has a collision. Proved: when ids agree; names that differ in one byte never collide."
  },
  {
   "property": "C19",
   "status": "partial",
   "theorems": [
    "Speed.C19_step",
    "Speed.C19_counter_partial",
    "Speed.C19_vector_partial",
    "Speed.C19_refuted"
   ],
   "note": "False on overflow: Up on a counter at 2^63-1 makes it negative (C19_refuted). Proved for every history without overflow; C19_step says that overflow is the only way down."
  },
  {
   "property": "C20",
   "status": "proved",
   "theorems": [
    "Speed.C20_linearizable",
    "Speed.C20_file",
    "Speed.C20_race_free",
    "Speed.C20_no_deadlock",
    "Speed.C20_inc_sum",
    "Speed.C20_inc_sum_vector"
   ],
   "note": "Any number of goroutines, all operations of all metrics, on an active client; steps are single loads and stores. MustX, Up and the All operations are programs that call these. Sequential consistency is justified by C20_race_free."
  },
  {
   "property": "C21",
   "status": "proved",
   "theorems": [
    "Speed.C21_construct",
    "Speed.C21_valInstance",
    "Speed.C21_setInstance",
    "Speed.C21_history"
   ],
   "note": ""
  },
  {
   "property": "C22",
   "status": "proved",
   "theorems": [
    "Speed.C22_incAll",
    "Speed.C22_upAll",
    "Speed.C22_gauge",
    "Speed.C22_active"
   ],
   "note": "Sequential; float64 addition is a parameter. C22_active: the mapped file does not depend on the iteration order either."
  },
  {
   "property": "C23",
   "status": "partial",
   "theorems": [
    "Speed.C23_setAll_partial",
    "Speed.C23_exact",
    "Speed.C23_refuted"
   ],
   "note": "False when some instances are larger and some are not (C23_refuted); proved otherwise."
  },
  {
   "property": "C24",
   "status": "proved",
   "theorems": [
    "Speed.C24_timer",
    "Speed.C24_history",
    "Speed.C24_units",
    "Speed.C24_value",
    "Speed.C24_exact"
   ],
   "note": "Clock readings are inputs. C24_timer and C24_history hold for any arithmetic with two laws; C24_units, C24_value and C24_exact are for IEEE 754 arithmetic, which has them (ieee_lawful), and bound the rounding error of the sum of the intervals in each unit."
  },
  {
   "property": "C25",
   "status": "proved",
   "theorems": [
    "Speed.C25_gauge",
    "Speed.C25_vector",
    "Speed.C25_rounded",
    "Speed.C25_exact",
    "Speed.ieee_lawful",
    "Speed.ieee_nearest"
   ],
   "note": "C25_gauge and C25_vector hold for any arithmetic with two laws (Flops.Lawful); IEEE 754 arithmetic is defined, proved to round to nearest and to have the laws, and C25_rounded and C25_exact are for it."
  },
  {
   "property": "C26",
   "status": "proved",
   "theorems": [
    "Speed.C26_record",
    "Speed.C26_history",
    "Speed.C26_accessors",
    "Speed.C26_exact"
   ],
   "note": "The histogram library is a parameter. The accessors Min and Max are exact for numbers up to 2^53 (C26_exact)."
  },
  {
   "property": "C27",
   "status": "partial",
   "theorems": [
    "Speed.C27_swapped_partial",
    "Speed.C27_refuted",
    "Speed.C27_refuted_example"
   ],
   "note": "False: High and Low are exchanged."
  },
  {
   "property": "C28",
   "status": "partial",
   "theorems": [
    "Speed.Units.C28_range",
    "Speed.Units.C28_exact",
    "Speed.Units.C28_odd_partial",
    "Speed.Units.C28_refuted",
    "Speed.Units.C28_refuted_example"
   ],
   "note": "False for every even dimension, and where the component exists already; proved for odd dimensions on a unit without the component."
  },
  {
   "property": "C29",
   "status": "proved",
   "theorems": [
    "Speed.Units.C29_independent",
    "Speed.Units.C29_order",
    "Speed.Units.C29_base",
    "Speed.Units.C29_methods"
   ],
   "note": ""
  },
  {
   "property": "C30",
   "status": "proved",
   "theorems": [
    "Speed.C30_grammar",
    "Speed.C30_rejected"
   ],
   "note": "All byte strings, including invalid UTF-8. The Unicode tables for letters and numbers are a parameter that is right on ASCII."
  },
  {
   "property": "C31",
   "status": "partial",
   "theorems": [
    "Speed.C31_match_partial",
    "Speed.C31_reuse",
    "Speed.C31_exact",
    "Speed.C31_refuted",
    "Speed.C31_refuted_repeat"
   ],
   "note": "False for lists that repeat a name, in both directions. Proved for lists without repetition."
  },
  {
   "property": "C32",
   "status": "partial",
   "theorems": [
    "Speed.Dump.C32_no_crash_partial",
    "Speed.Dump.C32_refuted",
    "Speed.Dump.C32_refuted_negative_count",
    "Speed.Dump.C32_refuted_unknown_type",
    "Speed.Dump.C32_refuted_wraparound"
   ],
   "note": "False: three concrete crashing inputs. Proved under conditions on the TOC; C66_outcomes gives the exact condition."
  },
  {
   "property": "C33",
   "status": "proved",
   "theorems": [
    "Speed.Dump.C33_header",
    "Speed.Dump.C33_items"
   ],
   "note": "Sections without wraparound of offsets."
  },
  {
   "property": "C34",
   "status": "proved",
   "theorems": [
    "Speed.Dump.C34_schedule_independent",
    "Speed.Dump.C34_terminates"
   ],
   "note": ""
  },
  {
   "property": "C35",
   "status": "proved",
   "theorems": [
    "Speed.Dump.C35_short",
    "Speed.Dump.C35_magic",
    "Speed.Dump.C35_generation",
    "Speed.Dump.C35_toc"
   ],
   "note": ""
  },
  {
   "property": "C36",
   "status": "proved",
   "theorems": [
    "Speed.C36_references"
   ],
   "note": ""
  },
  {
   "property": "C37",
   "status": "partial",
   "theorems": [
    "Speed.C37_start",
    "Speed.C37_stop_inactive",
    "Speed.C37_stop_partial",
    "Speed.C37_register",
    "Speed.C37_published",
    "Speed.C37_refuted_shared"
   ],
   "note": "Proved for one client per registry. False for two clients that share a registry: Stop of the inactive one panics (C37_refuted_shared)."
  },
  {
   "property": "C38",
   "status": "partial",
   "theorems": [
    "Speed.C38_partial",
    "Speed.C38_refuted",
    "Speed.C38_refuted_example"
   ],
   "note": "False: the update closures survive Stop, every value change of a published metric faults (C38_refuted). Proved for metrics that were never published and while the client is active."
  },
  {
   "property": "C39",
   "status": "partial",
   "theorems": [
    "Speed.C39_location_partial",
    "Speed.C39_absolute",
    "Speed.C39_config",
    "Speed.C39_dir",
    "Speed.C39_refuted",
    "Speed.C39_refuted_dotdot"
   ],
   "note": "False for the names \"\", \".\" and \"..\", which are accepted; proved for all others and all configurations."
  },
  {
   "property": "C40",
   "status": "proved",
   "theorems": [
    "Speed.C40_aligned"
   ],
   "note": ""
  },
  {
   "property": "C41",
   "status": "proved",
   "theorems": [
    "Speed.C41_string_replaced"
   ],
   "note": ""
  },
  {
   "property": "C42",
   "status": "partial",
   "theorems": [
    "Speed.C42_refuted",
    "Speed.C42_race",
    "Speed.C42_apart_partial"
   ],
   "note": "False: the value goroutines of Start do not take the mutex of the metric, so a Set between reading the value and assigning the closure is lost (C42_refuted). Proved for every interleaving in which no operation that changes a metric overlaps that window of one of its values. The offsets of the values are inputs of the model (any disjoint layout; Active.layout shows that those Start chooses are one)."
  },
  {
   "property": "C43",
   "status": "partial",
   "theorems": [
    "Speed.C43_registered_partial",
    "Speed.C43_no_deadlock",
    "Speed.C43_refuted",
    "Speed.C43_refuted_duplicate",
    "Speed.C43_refuted_lost_update",
    "Speed.C43_refuted_shared_fails",
    "Speed.C43_refuted_shared_counts"
   ],
   "note": "False: the name is looked up and added under separate critical sections, so two registrations of a name both succeed; stringcount is incremented under two different locks; a new domain shared by two goroutines is counted twice or makes one call fail. Proved for every interleaving, any number of goroutines, when names are different and new, goroutines do not share new domains, and new domains have no descriptions."
  },
  {
   "property": "C44",
   "status": "partial",
   "theorems": [
    "Speed.C44_mixed_partial",
    "Speed.C44_refuted"
   ],
   "note": "False when no registered domain has an instance: every schedule of Start ends in a panic (C44_refuted, all such registries). Proved for registries in which some other domain has an instance."
  },
  {
   "property": "C45",
   "status": "partial",
   "theorems": [
    "Speed.C45_names_partial",
    "Speed.C45_exact",
    "Speed.C45_refuted"
   ],
   "note": "False for string values longer than 256 bytes (C45_refuted). Names cannot spill; shorter string values: C06, C41."
  },
  {
   "property": "C46",
   "status": "partial",
   "theorems": [
    "Speed.C46_own_partial",
    "Speed.C46_refuted"
   ],
   "note": "False when the metric's domain is another object than the registered domain of the same name (C46_refuted); proved otherwise."
  },
  {
   "property": "C47",
   "status": "partial",
   "theorems": [
    "Speed.C47_library_partial",
    "Speed.C47_refuted"
   ],
   "note": "False: with a metric of a type from outside the library Start never returns, whatever the schedule (C47_refuted, all such registries). Proved for the library's types under the conditions of C02."
  },
  {
   "property": "C48",
   "status": "proved",
   "theorems": [
    "Speed.C48_singleton",
    "Speed.C48_counter",
    "Speed.C48_gauge",
    "Speed.C48_timer",
    "Speed.C48_domain",
    "Speed.C48_counterVector",
    "Speed.C48_gaugeVector",
    "Speed.C48_histogram"
   ],
   "note": ""
  },
  {
   "property": "C49",
   "status": "proved",
   "theorems": [
    "Speed.C49_bounds"
   ],
   "note": ""
  },
  {
   "property": "C50",
   "status": "partial",
   "theorems": [
    "Speed.C50_line",
    "Speed.C50_file_partial",
    "Speed.C50_exact",
    "Speed.C50_exact_last",
    "Speed.C50_refuted"
   ],
   "note": "Proved for every line and for every file whose lines are shorter than 64 KiB; false for a file with a longer line, after which bufio.Scanner stops."
  },
  {
   "property": "C51",
   "status": "partial",
   "theorems": [
    "Speed.C51_comment_partial",
    "Speed.C51_exact",
    "Speed.C51_refuted"
   ],
   "note": "False: the expression is not anchored, a commented-out assignment counts (C51_refuted); exactly what such a line does is proved."
  },
  {
   "property": "C52",
   "status": "partial",
   "theorems": [
    "Speed.C52_refuted",
    "Speed.C52_separate_partial",
    "Speed.C52_shared_partial"
   ],
   "note": "False: all histograms share the domain object histogramIndom, so two clients started at the same time overwrite each other's instance offsets; a schedule of 1029 steps ends with a file in which no value record refers to an instance record. Proved for any number of clients that share no domain or metric object, under every interleaving: no panic, no deadlock, and each file is one the client could have written alone. With shared domain objects (but no shared metrics) the same holds for all bytes except the instance fields of the value records, and every schedule ends."
  },
  {
   "property": "C53",
   "status": "partial",
   "theorems": [
    "Speed.C53_failed_partial",
    "Speed.C53_exists",
    "Speed.C53_refuted"
   ],
   "note": "False when the write or the mapping of the new file fails: the handle stays open (C53_refuted). Proved for all other failures; registry, metrics and client are unchanged in all of them."
  },
  {
   "property": "C54",
   "status": "proved",
   "theorems": [
    "Speed.C54_header",
    "Speed.C54_client"
   ],
   "note": ""
  },
  {
   "property": "C55",
   "status": "proved",
   "theorems": [
    "Speed.C55_toc"
   ],
   "note": ""
  },
  {
   "property": "C56",
   "status": "proved",
   "theorems": [
    "Speed.C56_exact",
    "Speed.C56_text"
   ],
   "note": "The formatting of floats is a parameter. Strings are printed with the zero bytes that fill their slot; they are compared without them."
  },
  {
   "property": "C57",
   "status": "proved",
   "theorems": [
    "Speed.C57_writer"
   ],
   "note": ""
  },
  {
   "property": "C58",
   "status": "proved",
   "theorems": [
    "Speed.C58_numbers",
    "Speed.C58_printed",
    "Speed.C58_values",
    "Speed.C58_inj"
   ],
   "note": ""
  },
  {
   "property": "C59",
   "status": "partial",
   "theorems": [
    "Speed.C59_refuted",
    "Speed.C59_number_partial",
    "Speed.C60_lines"
   ],
   "note": "False: the constants of mmvdump are all 0, so the string table has one name and counter, instant and discrete are printed Semantics(1), Semantics(3), Semantics(4). Proved: different semantics are printed differently."
  },
  {
   "property": "C60",
   "status": "proved",
   "theorems": [
    "Speed.C60_types",
    "Speed.C60_lines"
   ],
   "note": ""
  },
  {
   "property": "C61",
   "status": "proved",
   "theorems": [
    "Speed.C61_units",
    "Speed.C61_names",
    "Speed.C60_lines"
   ],
   "note": "For scales that have a name."
  },
  {
   "property": "C62",
   "status": "partial",
   "theorems": [
    "Speed.C62_apart_partial",
    "Speed.C62_refuted_crash",
    "Speed.C62_refuted_missing"
   ],
   "note": "False of the code. Partial: when no registration changes the registry between the moment Start takes the length and the moment it sets mapped, Start does not crash and the file describes the registry. Refuted: a metric registered after the length was taken makes start write past the end of the file (panic); for any registry, a metric registered after start has read the registry is accepted but is not in the file of the active client."
  },
  {
   "property": "C63",
   "status": "partial",
   "theorems": [
    "Speed.C63_held_partial",
    "Speed.C63_refuted_twice",
    "Speed.C63_refuted_stop"
   ],
   "note": "False of the code. Partial: one client, started only when inactive, no failing write, map, unmap or close. Refuted: a second Start of an active client succeeds and the first file's mapping and handle are never released; if munmap fails in Stop the mapping and the handle are never released, as the client has forgotten its writer. Both for all histories before and after."
  },
  {
   "property": "C64",
   "status": "partial",
   "theorems": [
    "Speed.Units.C64_unchanged_partial",
    "Speed.Units.C64_refuted",
    "Speed.Units.C64_refuted_example"
   ],
   "note": "False of the code: Space, Time and Count of a unit structure change it in place (metrics.go:160-197), so deriving a second unit from it changes the metrics made with it before. Partial: constants, and structures that are not extended after the metric was made."
  },
  {
   "property": "C65",
   "status": "proved",
   "theorems": [
    "Speed.LibText.C65_names",
    "Speed.LibText.C65_enums",
    "Speed.LibText.C65_text",
    "Speed.LibText.C65_made"
   ],
   "note": "Units that the library can make: the constants and everything that the methods make of them (MadeUnit)."
  },
  {
   "property": "C66",
   "status": "proved",
   "theorems": [
    "Speed.Dump.C66_outcomes",
    "Speed.Dump.C66_accepts"
   ],
   "note": "Slices shorter than 2^63 bytes."
  },
  {
   "property": "C67",
   "status": "partial",
   "theorems": [
    "Speed.C67_stamp_first",
    "Speed.C67_front_to_back_partial",
    "Speed.C67_refuted_generation",
    "Speed.C67_refuted_version",
    "Speed.C67_refuted_order"
   ],
   "note": "False: mmvdump checks only that the two generations are equal, so a reader from front to back that meets both still 0 accepts a file without records (C67_refuted_generation), one that meets the version still 0 decodes it wrongly (C67_refuted_version), and one that reads the header last sees a finished header before old contents (C67_refuted_order). Proved: a reader that reads the second generation first and finds it nonzero and equal to the first has read the final file; one that reads from front to back and finds generation and version nonzero gets a description of the registry. Changes of values during the reading are not considered."
  },
  {
   "property": "C68",
   "status": "partial",
   "theorems": [
    "Speed.C68_no_race_partial",
    "Speed.C68_refuted"
   ],
   "note": "False for a string value longer than 256 bytes: two goroutines write the same byte (C68_refuted). Proved for all registries with shorter values. Accesses to the fields of the registry and the metrics are reads only and are not listed."
  },
  {
   "property": "C69",
   "status": "partial",
   "theorems": [
    "Speed.Dump.C69_exact",
    "Speed.Dump.C69_deterministic_partial",
    "Speed.Dump.C69_refuted",
    "Speed.Dump.C69_refuted_wraparound"
   ],
   "note": "False when a kind of section is listed twice, or a section reaches over 2^64. Proved when no kind is listed twice and no section reaches over 2^64. C69_exact says for which bytes it holds: it is an equivalence. The text of an error is not modelled."
  },
  {
   "property": "C70",
   "status": "partial",
   "theorems": [
    "Speed.C70_path_partial",
    "Speed.C70_names",
    "Speed.C70_refuted",
    "Speed.C70_refuted_start",
    "Speed.C70_refuted_stop",
    "Speed.C70_refuted_again"
   ],
   "note": "False for two clients with the same path: Start of the second removes the file of the first, Stop of the first removes that of the second. False also when Start of an active client fails after removing the old file. Proved for any number of programs whose clients have different paths (C70_names: different names). Calls of different programs are interleaved as a whole."
  },
  {
   "property": "C71",
   "status": "partial",
   "theorems": [
    "Speed.C71_before_partial",
    "Speed.C71_readers_partial",
    "Speed.C71_refuted"
   ],
   "note": "False: Stop and the operations of metrics have no mutex in common. For every active client, every Set of a fitting compatible value different from the present one has a schedule in which the memory is unmapped before its first write. Proved when no operation that changes values is running at the unmapping or called later."
  },
  {
   "property": "C72",
   "status": "partial",
   "theorems": [
    "Speed.C72_partial",
    "Speed.C72_refuted_histogram",
    "Speed.C72_refuted_string",
    "Speed.C20_race_free"
   ],
   "note": "False: String, Percentile and Buckets take no lock. Every accepted Record has a schedule in which it is about to write the histogram that Percentile and Buckets read, and every Set to another value one in which it is about to write the value that String reads. Proved for the methods that take the lock (C20_race_free), for High and Low, and for the others while nobody changes the metric."
  },
  {
   "property": "C73",
   "status": "partial",
   "theorems": [
    "Speed.C73_last_partial",
    "Speed.C73_first_partial",
    "Speed.C73_apart_partial",
    "Speed.C73_refuted"
   ],
   "note": "False: a value has one closure, and the second Start replaces it. Every accepted Set of a shared metric to another value leaves the file of the first client with the old value. Proved: the file of the client started last is right, that of the first is right except that shared metrics keep the value of the time of the second Start, and right if no metric is shared."
  },
  {
   "property": "C74",
   "status": "partial",
   "theorems": [
    "Speed.C74_where_partial",
    "Speed.C74_partial",
    "Speed.C74_readers_partial",
    "Speed.C74_refuted_count",
    "Speed.C74_refuted_version",
    "Speed.C74_refuted_readers"
   ],
   "note": "False: AddInstanceDomain and addMetric hold different mutexes and both access stringcount and version2; ValuesCount, StringCount and the lookup in addInstanceMetricByString take no lock. Proved: these are the only places (every race is on stringcount with a new domain that has a description, or on version2 with a long metric name and a new domain), so there is none if the domains are registered before or have no descriptions and names are short; the readers that lock never race."
  },
  {
   "property": "C75",
   "status": "proved",
   "theorems": [
    "Speed.C75_tool"
   ],
   "note": "The file is read at one moment between calls. The conditions are those of C70."
  },
  {
   "property": "C76",
   "status": "partial",
   "theorems": [
    "Speed.C76_file_partial",
    "Speed.C76_refuted"
   ],
   "note": "False for names of at least two bytes that begin with a minus sign: package flag takes them, nothing is read. Proved for all other names: exact outcomes."
  },
  {
   "property": "C77",
   "status": "partial",
   "theorems": [
    "Speed.C77_written_partial",
    "Speed.C77_tool_partial",
    "Speed.C77_refuted",
    "Speed.C77_refuted_tool"
   ],
   "note": "False: the result of the first Printf is ignored, so the line with the name of the file can be missing. Proved for everything after it."
  },
  {
   "property": "C78",
   "status": "partial",
   "theorems": [
    "Speed.C78_partial",
    "Speed.C78_one",
    "Speed.C78_refuted"
   ],
   "note": "False for strings: the update closure clears the 256 bytes before it writes, so every Set of a string to another one has a moment at which the file shows the empty string (C78_refuted). Proved: at every moment Dump accepts the file, and it shows the registry, at the same addresses, with the present value of every metric, except for values whose update closure a goroutine is just running; of each metric that is at most one (C78_one). For those nothing is claimed about the value shown: the model writes bytes one by one, while an 8-byte copy is one store on amd64."
  },
  {
   "property": "C79",
   "status": "partial",
   "theorems": [
    "Speed.ObjText.C79_domain_partial",
    "Speed.ObjText.C79_once",
    "Speed.ObjText.C79_refuted_order",
    "Speed.ObjText.C79_refuted_ident",
    "Speed.ObjText.C79_value",
    "Speed.ObjText.C79_desc",
    "Speed.ObjText.C79_refuted_desc"
   ],
   "note": "False: String of a domain with two or more instances depends on the order of the map (C79_refuted_order), names with spaces or brackets make the text ambiguous (C79_refuted_ident), and so do line breaks in descriptions and string values (C79_refuted_desc). Proved: the text identifies name and instances if instance names are words and the name has no bracket; one text for at most one instance; of one metric, different values have different texts unless the type is a float type (the text of floats is a parameter)."
  },
  {
   "property": "C80",
   "status": "partial",
   "theorems": [
    "Speed.Examples.C80_singleton_counter",
    "Speed.Examples.C80_http_counter",
    "Speed.Examples.C80_simple",
    "Speed.Examples.C80_simple_string",
    "Speed.Examples.C80_singleton_string",
    "Speed.Examples.C80_instance_string",
    "Speed.Examples.C80_acme_serial",
    "Speed.Examples.C80_acme_forever",
    "Speed.Examples.C80_runtime_partial",
    "Speed.Examples.C80_refuted_runtime",
    "Speed.Examples.C80_histogram",
    "Speed.Examples.C80_download"
   ],
   "note": "False: the goroutine of examples/runtime goes on after MustStop has unmapped the memory, and its next tick kills the process (C80_refuted_runtime); its instance Lookups is never set. Proved for the other programs, and for runtime up to MustStop, with system calls that succeed and, for basic_histogram, a library that records all values."
  },
  {
   "property": "C81",
   "status": "proved",
   "theorems": [
    "Speed.C81_singleton",
    "Speed.C81_instance"
   ],
   "note": "A map key is unique in Go, so the keys of Instances are assumed distinct."
  },
  {
   "property": "C82",
   "status": "partial",
   "theorems": [
    "Speed.C82_partial",
    "Speed.C82_no_deadlock",
    "Speed.C82_refuted",
    "Speed.C82_refuted_fails",
    "Speed.C82_refuted_twice",
    "Speed.C82_refuted_file"
   ],
   "note": "False of the code: two goroutines that register \"c[a].d\" and \"c[a].e\" both find the domain missing; then either one call fails, or both succeed, the first metric belongs to an unregistered domain, the instances are counted twice and Start writes an empty instance record and a value without instance. Proved: if no two goroutines use the same new domain, and each would succeed alone, all succeed; termination for arbitrary calls."
  },
  {
   "property": "C83",
   "status": "partial",
   "theorems": [
    "Speed.C83_refuted_unchecked",
    "Speed.C83_refuted_start",
    "Speed.C83_refuted_panic",
    "Speed.C83_file",
    "Speed.C83_refuted_calls",
    "Speed.C83_units_partial"
   ],
   "note": "False of the code: a nil unit is accepted by NewPCPSingletonMetric, NewPCPInstanceMetric, NewPCPHistogram, RegisterString and Register, and then every run of Start panics in a goroutine at desc.u.PMAPI(); the file it leaves is never taken for a complete one. Register(nil), RegisterIndom(nil), a nil domain and a nil registry panic too. Proved: with all units there, Start returns."
  },
  {
   "property": "C84",
   "status": "partial",
   "theorems": [
    "Speed.C84_refuted_instances",
    "Speed.C84_refuted_indoms",
    "Speed.C84_refuted_large",
    "Speed.C84_refuted_clients",
    "Speed.C84_refuted_file",
    "Speed.C84_file_instances",
    "Speed.C84_file_indoms",
    "Speed.C84_ids_partial",
    "Speed.C84_near_partial",
    "Speed.C84_clients_partial"
   ],
   "note": "False of the code: instances costarring and liquid of one domain, domains dsz and iaze, clients ng and aaa get the same id; no call reports it, and the published file then has two instance records of one domain with one internal id and two names. Proved: exactly when ids agree; never for names that differ in one byte, or (domains, instances) in two neighbouring bytes."
  },
  {
   "property": "C85",
   "status": "partial",
   "theorems": [
    "Speed.C85_refuted",
    "Speed.C85_generation",
    "Speed.C85_notice_partial"
   ],
   "note": "False of the code: after Start, Stop, a registration and Start within one second the file has other contents and the same generation. Proved: the generation of an active client's file is the clock at its last successful Start, the file is the same one iff there was no Start in between, and the generations differ if the clock readings do."
  },
  {
   "property": "C86",
   "status": "proved",
   "theorems": [
    "Speed.C86_ends",
    "Speed.C86_must",
    "Speed.C86_which",
    "Speed.C86_up",
    "Speed.C86_record",
    "Speed.C86_client",
    "Speed.C86_client_iff",
    "Speed.C86_active",
    "Speed.C86_free"
   ],
   "note": "The conditions are `Call.Accepts`, with `Takes` for values. `C86_active` and `C86_free` hold for every metric a program can have and every operation of its kind (`Call.kind`; that metrics keep the type and instances of their kind is `Built.kindOK`); longer strings are C45."
  },
  {
   "property": "C87",
   "status": "partial",
   "theorems": [
    "Speed.C87_refuted",
    "Speed.C87_unknown_partial"
   ],
   "note": "False of the code: Inc(0, unknown) of a counter vector succeeds. Proved: every other operation is refused and none changes anything."
  },
  {
   "property": "C88",
   "status": "partial",
   "theorems": [
    "Speed.C88_values",
    "Speed.C88_numbers",
    "Speed.C88_ops",
    "Speed.C88_length_partial",
    "Speed.C88_refuted"
   ],
   "note": "False of the code: with eight million instances with long names Length is negative where int has 32 bits, and Start panics, leaving an empty file. Proved: all values are treated alike, and the file is the same if it has less than 2^31 bytes."
  },
  {
   "property": "C89",
   "status": "proved",
   "theorems": [
    "Speed.C89_all_or_nothing",
    "Speed.C89_bytes",
    "Speed.C89_must",
    "Speed.C89_shared"
   ],
   "note": "At a negative offset, and where the sum of offset and length is no int, the methods panic instead of returning an error (C10_refuted); the buffer is unchanged then too. WriteVal of types that the library never passes (bool, structs, slices) is taken to fail; binary.Write can encode some of them."
  },
  {
   "property": "C90",
   "status": "proved",
   "theorems": [
    "Speed.C90_kept",
    "Speed.C90_counts",
    "Speed.C90_values"
   ],
   "note": "Sequential calls. A unit is a value here; unit structures that are changed after the metric was made are C64."
  },
  {
   "property": "C91",
   "status": "proved",
   "theorems": [
    "Speed.C91_cut",
    "Speed.C91_extra",
    "Speed.C91_any",
    "Speed.C91_any_extra"
   ],
   "note": "The files here are those of clients that run; files that are still being written are the subject of C04. Files of 2^63 bytes or more are left out."
  },
  {
   "property": "C92",
   "status": "proved",
   "theorems": [
    "Speed.Dump.C92_frame",
    "Speed.C92_refused",
    "Speed.C92_unnoticed",
    "Speed.C92_hang"
   ],
   "note": "Damage to the version, to the number of sections and to counts and offsets in the table of contents is covered by C66_outcomes, which says for any bytes what happens."
  },
  {
   "property": "C93",
   "status": "proved",
   "theorems": [
    "Speed.C93_file",
    "Speed.C93_instances"
   ],
   "note": "What each constructor passes on is C48; the timer's and the histogram's unit is the one given to the constructor (C03)."
  },
  {
   "property": "C94",
   "status": "proved",
   "theorems": [
    "Speed.C94_same_file"
   ],
   "note": "Names of domains are not in the file, only their numbers, and two names can have the same one (C84). NULs at the end of strings cannot be told from padding."
  },
  {
   "property": "C95",
   "status": "proved",
   "theorems": [
    "Speed.C95_poll",
    "Speed.C95_quiet",
    "Speed.C95_order",
    "Speed.C95_vector_poll",
    "Speed.C95_vector_quiet",
    "Speed.C95_vector_order"
   ],
   "note": "`NoOverflow` and `CvNoOverflow` are the conditions on increments; Up and MustInc are Inc up to a panic (C86)."
  },
  {
   "property": "C96",
   "status": "proved",
   "theorems": [
    "Speed.C96_start",
    "Speed.C96_stop",
    "Speed.C96_one"
   ],
   "note": "Stop can fail on a running timer (then it runs on), so the call of Stop between two Starts need not be the only one."
  },
  {
   "property": "C97",
   "status": "proved",
   "theorems": [
    "Speed.C97_equal",
    "Speed.C97_written"
   ],
   "note": "The value has a place in the file (the client runs) and the file is long enough; strings are in C05 and C08."
  }
 ]
}