{"id": "C01", "title": "File layout is exact: no gaps, no overlap, no overflow", "statement": "For every registry, the sections header, TOC, indoms, instances, metrics, values and strings that Start lays out are contiguous, pairwise disjoint, in that order, and together cover exactly Length() bytes.", "quantifier": "every registry content (any number of metrics, instance domains, instances, strings), both MMV versions", "why_tests_cant": "The sizes are unbounded sums over registry contents; a test fixes one registry.", "anchors": ["client.go: PCPClient.Length", "client.go: PCPClient.start", "client.go: PCPClient.tocCount", "registry.go: StringCount"]}
{"id": "C02", "title": "Start never deadlocks or panics, under any schedule", "statement": "For every registry whose instance domains are non-empty, whose strings fit their 256-byte slots and whose metrics are of the library's own types, Start terminates normally under every goroutine interleaving and every map iteration order: no goroutine stays blocked and no bounds or WaitGroup panic occurs.", "quantifier": "every such registry, every interleaving of all goroutines spawned by Start, every map iteration order", "why_tests_cant": "Number of schedules is exponential; the Go scheduler exercises few of them.", "anchors": ["client.go: PCPClient.start", "client.go: writeTocBlock", "client.go: writeInstanceDomain", "client.go: writeMetricDesc", "client.go: writeValue"]}
{"id": "C03", "title": "Dump(Start(registry)) is the registry", "statement": "After Start returns, mmvdump.Dump on the mapped bytes succeeds, and resolving the dump's references gives exactly the registered metrics (name, id, type, semantics, unit, indom, short/long text), instance domains, instances and current values: each exactly once, nothing else; independent of schedule and map order.", "quantifier": "every registry satisfying C02's conditions, every schedule, every map iteration order", "why_tests_cant": "Round trip over unbounded inputs and all interleavings.", "anchors": ["client.go: PCPClient.start", "mmvdump/mmvdump.go: Dump"]}
{"id": "C04", "title": "A reader never accepts a half-written file", "statement": "At every instant during Start, at single-byte granularity and under every schedule, a reader that runs Dump on the bytes either gets an error, or gets a header with zero TOC entries (nothing published), or sees every byte in its final state.", "quantifier": "every schedule, every intermediate point of Start (equivalently every crash point of the process), every non-zero generation stamp", "why_tests_cant": "Tests look at the file only after Start returned; the set of intermediate states is unbounded.", "anchors": ["client.go: PCPClient.start", "client.go: writeHeaderBlock", "bytewriter/bytewriter.go: Write", "mmvdump/mmvdump.go: readHeader"]}
{"id": "C05", "title": "The mapped file always shows the last successfully set value", "statement": "While a client is active, after any history of Set/SetInstance/Inc/... calls on registered metrics, the value Dump reads for each metric (and instance) equals what Val()/ValInstance() returns (for floats: equal in the IEEE sense, identical bits unless a zero was replaced by a zero of the other sign).", "quantifier": "every history of value operations of any length on any set of registered metrics", "why_tests_cant": "Histories are unbounded and interact through shared buffer bytes.", "anchors": ["metrics.go: newupdateClosure", "metrics.go: pcpSingletonMetric.set", "metrics.go: pcpInstanceMetric.setInstance", "client.go: writeValue"]}
{"id": "C06", "title": "Setting one value does not disturb any other byte", "statement": "A successful update of one value of fixed-size type changes only bytes inside that value's 8 data bytes, and one of a string value of at most 256 bytes changes only its own 256-byte string slot; every other metric's dump is unchanged.", "quantifier": "every registry, every value, every new value within the size limit", "why_tests_cant": "Absence of interference must hold for all offsets and all other records.", "anchors": ["metrics.go: newupdateClosure", "bytewriter/bytewriter.go: Write", "bytewriter/bytewriter.go: WriteVal"]}
{"id": "C07", "title": "Accepted values are stored without truncation and with the declared type", "statement": "If a MetricType accepts a value (IsCompatible), the stored value has exactly the Go type that the MetricType denotes, and for integers it is numerically equal to the passed value; strings are unchanged; float64 into a Float metric is the float32 conversion of a value inside the float32 range.", "quantifier": "all metric types (including undefined codes), all Go values of the nine accepted dynamic types", "why_tests_cant": "2^64 inputs per type; boundary errors hide between sampled points.", "anchors": ["metrics.go: IsCompatible", "metrics.go: isCompatibleInt", "metrics.go: isCompatibleUint", "metrics.go: isCompatibleFloat", "metrics.go: resolve"]}
{"id": "C08", "title": "A rejected Set changes nothing", "statement": "If Set/SetInstance returns an error, neither the value returned by Val()/ValInstance() nor any byte of the mapped file changes.", "quantifier": "every metric, every passed value, every file state", "why_tests_cant": "Needs every error path times every prior state.", "anchors": ["metrics.go: pcpSingletonMetric.set", "metrics.go: pcpInstanceMetric.setInstance", "metrics.go: newupdateClosure"]}
{"id": "C09", "title": "Binary encoding round-trips through the reader", "statement": "Writing an int32, uint32, int64, uint64, float32 or float64 at a value slot and decoding the slot with FixedVal under the corresponding type returns exactly the written value (bit-exact for floats), whatever the other bytes of the slot hold beyond the type's width.", "quantifier": "all values of all six fixed-size types, all buffers and all in-range offsets", "why_tests_cant": "Input space is 2^32 or 2^64 per type.", "anchors": ["bytewriter/bytewriter.go: WriteVal", "mmvdump/mmvdump.go: FixedVal", "mmvdump/mmvdump.go: readValue"]}
{"id": "C10", "title": "ByteWriter.Write is exact and bounds-checked", "statement": "Write(data, off) with off >= 0 succeeds iff off+len(data) <= Len(); then it returns off+len(data), stores data at [off, off+len) and leaves every other byte and the length unchanged; otherwise it returns an error and leaves the buffer unchanged.", "quantifier": "all buffers, all data, all non-negative offsets", "why_tests_cant": "Bounds must hold for every offset/length pair.", "anchors": ["bytewriter/bytewriter.go: Write", "bytewriter/bytewriter.go: MustWrite", "bytewriter/bytewriter.go: WriteString"]}
{"id": "C11", "title": "Concurrent writes to disjoint ranges do not interfere", "statement": "Any byte-level interleaving of any number of concurrent Write calls to pairwise disjoint ranges ends in the same buffer as performing the calls one after another in any order.", "quantifier": "any number of writers, any pairwise disjoint ranges, any interleaving", "why_tests_cant": "Exponentially many interleavings; the race detector cannot prove the result.", "anchors": ["bytewriter/bytewriter.go: Write", "bytewriter/writer.go: package comment"]}
{"id": "C12", "title": "Registry counts match contents after any history", "statement": "After any sequence of successful or failed registrations, MetricCount, ValuesCount, InstanceDomainCount, InstanceCount and StringCount equal the numbers computed from the registered objects (values: 1 per singleton, one per instance otherwise; strings: non-empty descriptions, string values, and in v2 every metric and instance name).", "quantifier": "all sequential histories of AddMetric / AddInstanceDomain / AddInstanceDomainByName / AddMetricByString", "why_tests_cant": "Counts are maintained incrementally; any missed update shows only on particular histories.", "anchors": ["registry.go: AddMetric", "registry.go: addMetric", "registry.go: AddInstanceDomain", "registry.go: StringCount"]}
{"id": "C13", "title": "Names are unique in a registry; duplicates are rejected without effect", "statement": "Registering a metric or an instance domain under a name already present fails and changes nothing; a successful registration adds exactly that name; HasMetric/HasInstanceDomain answer exactly whether a name was successfully registered.", "quantifier": "all sequential registration histories and all names", "why_tests_cant": "Universally quantified over histories.", "anchors": ["registry.go: AddMetric", "registry.go: AddInstanceDomain", "registry.go: HasMetric", "registry.go: HasInstanceDomain"]}
{"id": "C14", "title": "The registry is frozen while the client is active", "statement": "Between a successful Start and the next Stop every Register, RegisterIndom, RegisterString and SetFlag call fails and leaves registry, flag and Length() unchanged.", "quantifier": "all histories of client calls", "why_tests_cant": "Safety over unbounded call sequences.", "anchors": ["registry.go: AddMetric", "registry.go: AddInstanceDomain", "client.go: SetFlag", "client.go: Start", "client.go: Stop"]}
{"id": "C15", "title": "A failed registration leaves the registry unchanged", "statement": "If Register, RegisterIndom, AddInstanceDomainByName or RegisterString returns an error the registry is exactly as before.", "quantifier": "all registries, all arguments", "why_tests_cant": "All error paths of multi-step registration times all prior registries.", "anchors": ["registry.go: AddMetric", "registry.go: addInstanceMetricByString", "registry.go: AddMetricByString"]}
{"id": "C16", "title": "MMV version is chosen so that names are never truncated", "statement": "The file is version 2 iff some registered metric or instance name is longer than 63 bytes; in version 1 every name is stored NUL-terminated in its 64-byte field; in version 2 every name (at most 256 bytes) is stored whole in a string slot.", "quantifier": "all registration histories, all names", "why_tests_cant": "The flag is sticky state updated on several paths; every path and history must agree.", "anchors": ["registry.go: addMetric", "registry.go: AddInstanceDomain", "client.go: writeMetricDesc", "client.go: writeInstance"]}
{"id": "C17", "title": "Identifiers fit their bit widths and depend only on the name", "statement": "Metric item ids are < 2^10, instance-domain ids < 2^22, cluster ids < 2^12, instance ids < 2^32; equal names always get equal ids; with b = 0 the full FNV-1a hash is returned.", "quantifier": "all names (byte strings of any length)", "why_tests_cant": "Unbounded strings.", "anchors": ["speed.go: hash", "metrics.go: newpcpMetricDesc", "instance_domain.go: NewPCPInstanceDomain", "client.go: NewPCPClientWithRegistry"]}
{"id": "C18", "title": "Metric ids are unique within a client", "statement": "Two different metrics registered in one registry never carry the same id (the code documents the id as 'unique metric id').", "quantifier": "all pairs of distinct names", "why_tests_cant": "Collisions are sparse among sampled names.", "anchors": ["speed.go: hash", "metrics.go: pcpMetricDesc.id", "registry.go: AddMetric"]}
{"id": "C19", "title": "A counter never goes backwards", "statement": "No sequence of Set, Inc and Up calls, successful or not, ever makes a PCPCounter's (or any PCPCounterVector instance's) value smaller than it was.", "quantifier": "all operation sequences, all int64 arguments", "why_tests_cant": "Histories are unbounded; overflow needs extreme arguments.", "anchors": ["metrics.go: PCPCounter.Set", "metrics.go: PCPCounter.Inc", "metrics.go: PCPCounterVector.Set", "metrics.go: PCPCounterVector.Inc"]}
{"id": "C20", "title": "Concurrent counter increments are not lost", "statement": "When any number of goroutines call Inc/Up/Set/Val on one counter concurrently, the results are those of some sequential order of the calls; in particular for Inc only, the final value is the initial value plus the sum of all increments (mod 2^64), and the mapped file agrees.", "quantifier": "any number of goroutines and operations, every interleaving of their individual loads and stores", "why_tests_cant": "Schedules are unbounded.", "anchors": ["metrics.go: PCPCounter.Inc", "metrics.go: PCPCounter.Set", "metrics.go: PCPCounter.Val"]}
{"id": "C21", "title": "Instance metrics hold exactly one value per instance of their domain", "statement": "Construction succeeds only if the passed values' keys are exactly the domain's instances and all are compatible; afterwards, for any history, ValInstance/SetInstance succeed on exactly those names, and an update of one instance leaves the others' values unchanged.", "quantifier": "all value maps, all domains, all operation histories", "why_tests_cant": "Universal over maps and histories.", "anchors": ["metrics.go: newpcpInstanceMetric", "metrics.go: valInstance", "metrics.go: setInstance"]}
{"id": "C22", "title": "Vector-wide operations hit every instance exactly once", "statement": "IncAll(v)/UpAll with v >= 0 and gauge SetAll/IncAll/DecAll apply the operation exactly once to every instance, in whatever order the map is iterated; the result does not depend on the order.", "quantifier": "all vectors, all arguments, all map iteration orders", "why_tests_cant": "Map order is random; number of orders is factorial.", "anchors": ["metrics.go: PCPCounterVector.IncAll", "metrics.go: PCPCounterVector.SetAll", "metrics.go: PCPGaugeVector.SetAll", "metrics.go: PCPGaugeVector.IncAll"]}
{"id": "C23", "title": "CounterVector.SetAll is all-or-nothing", "statement": "SetAll(v) either sets every instance to v or (when it panics because some instance is already larger) leaves every instance unchanged.", "quantifier": "all vectors, all arguments, all map iteration orders", "why_tests_cant": "The outcome depends on random map order.", "anchors": ["metrics.go: PCPCounterVector.SetAll", "metrics.go: PCPCounterVector.MustSet"]}
{"id": "C24", "title": "Timers accumulate exactly the started intervals", "statement": "A timer alternates Start and Stop: Start while running, Stop while stopped and Reset while running fail and change nothing; after any history the value is the sum, in the chosen unit, of the completed intervals since the last successful Reset, and Stop returns that total.", "quantifier": "all call histories, all clock readings", "why_tests_cant": "Unbounded histories.", "anchors": ["metrics.go: PCPTimer.Start", "metrics.go: PCPTimer.Stop", "metrics.go: PCPTimer.Reset"]}
{"id": "C25", "title": "Gauge arithmetic is exactly the float64 arithmetic of the calls", "statement": "After any history, Val() of a gauge (or gauge vector instance) equals folding float64 assignment/addition/subtraction over the calls in order (up to the sign of zero); Dec(x) is Inc(-x).", "quantifier": "all call histories, all float64 arguments including NaN and infinities", "why_tests_cant": "Unbounded histories.", "anchors": ["metrics.go: PCPGauge.Set", "metrics.go: PCPGauge.Inc", "metrics.go: PCPGauge.Dec", "metrics.go: PCPGaugeVector.Inc"]}
{"id": "C26", "title": "Published histogram statistics match the recorded data", "statement": "After any history of Record/RecordN, the five instances min, max, mean, variance and standard_deviation (and the accessor methods) equal the underlying HDR histogram's statistics as of the last successful record; a rejected record changes nothing.", "quantifier": "all histories of records, any behaviour of the HDR library", "why_tests_cant": "Unbounded histories.", "anchors": ["metrics.go: PCPHistogram.update", "metrics.go: PCPHistogram.Record", "metrics.go: PCPHistogram.RecordN"]}
{"id": "C27", "title": "Histogram High/Low report the configured bounds", "statement": "High() returns the highest and Low() the lowest recordable value.", "quantifier": "all histograms", "why_tests_cant": "A test with symmetric or unchecked bounds would not notice a swap.", "anchors": ["metrics.go: PCPHistogram.High", "metrics.go: PCPHistogram.Low"]}
{"id": "C28", "title": "Composite units carry the requested dimensions", "statement": "For d in -8..7, u.Space(s,d) (and Time, Count) yields a unit whose space (time, count) dimension decodes to d and whose scale decodes to s's scale; d outside the range panics.", "quantifier": "all base units, all scales, all dimensions", "why_tests_cant": "Small but combinatorial domain over all prior unit words (2^32).", "anchors": ["metrics.go: metricUnit.Space", "metrics.go: metricUnit.Time", "metrics.go: metricUnit.Count", "mmvdump/pcp.go: SpaceDim"]}
{"id": "C29", "title": "Unit components are independent", "statement": "Adding a space, time or count component never changes the other two components' dimension or scale, and components may be added in any order with the same result.", "quantifier": "all 32-bit unit words, all components and dimensions in range", "why_tests_cant": "2^32 words times dimensions.", "anchors": ["metrics.go: metricUnit.Space", "metrics.go: metricUnit.Time", "metrics.go: metricUnit.Count", "mmvdump/pcp.go: TimeDim"]}
{"id": "C30", "title": "RegisterString's name grammar", "statement": "A registration string is accepted iff it is dot-separated identifiers optionally with one bracketed comma-separated instance list after some identifier; then the metric name is the string without the bracket part, the domain name is the part before the bracket, and the instances are the listed identifiers in order.", "quantifier": "all strings", "why_tests_cant": "Regular-expression semantics (lazy/greedy, leftmost-first) over all strings.", "anchors": ["registry.go: parseString", "registry.go: pattern", "registry.go: instancesPattern"]}
{"id": "C31", "title": "RegisterString reuses a domain only for the same instance set", "statement": "When RegisterString names an existing instance domain it succeeds only if the listed instances are exactly that domain's instances (MatchInstances is true iff the list, as a set, equals the domain).", "quantifier": "all domains, all instance lists", "why_tests_cant": "All lists, including repeated names.", "anchors": ["instance_domain.go: MatchInstances", "registry.go: addInstanceMetricByString"]}
{"id": "C32", "title": "Dump never crashes", "statement": "For every byte slice Dump returns (a result or an error): it never panics, never reads outside the slice and never blocks forever.", "quantifier": "all byte slices", "why_tests_cant": "Adversarial inputs; fuzzing samples only.", "anchors": ["mmvdump/mmvdump.go: Dump", "mmvdump/mmvdump.go: readTocs", "mmvdump/mmvdump.go: readItems", "mmvdump/mmvdump.go: readComponents"]}
{"id": "C33", "title": "Dump returns exactly the items described by the TOC", "statement": "When Dump succeeds, then for each TOC entry of a kind listed once, the corresponding map has exactly the keys offset + i*itemsize for 0 <= i < count, each item decoded from the bytes at its key and lying entirely inside the data.", "quantifier": "all byte slices accepted by Dump whose offsets do not wrap around 2^64", "why_tests_cant": "All inputs.", "anchors": ["mmvdump/mmvdump.go: readItems", "mmvdump/mmvdump.go: readComponents"]}
{"id": "C34", "title": "Parallel item reading is schedule-independent", "statement": "readItems fails iff some item lies outside the data and otherwise returns all items, for every interleaving of its goroutines including their unsynchronised accesses to the shared error variable.", "quantifier": "all data, offsets, counts, all interleavings", "why_tests_cant": "Exponentially many schedules.", "anchors": ["mmvdump/mmvdump.go: readItems"]}
{"id": "C35", "title": "Dump rejects invalid headers", "statement": "Dump returns an error for data shorter than a header, for data not starting with 'MMV', for mismatching generation numbers, and for a TOC extending past the data.", "quantifier": "all byte slices", "why_tests_cant": "All inputs.", "anchors": ["mmvdump/mmvdump.go: readHeader", "mmvdump/mmvdump.go: readToc"]}
{"id": "C36", "title": "References inside a written file always resolve", "statement": "In a file written by Start every value's metric offset, every instance value's instance offset, every instance's domain offset, every domain's instance-table offset and every non-zero text/name offset is a key of the corresponding Dump map; consequently mmvdump.Write prints the file without panicking or returning an error of its own.", "quantifier": "every registry satisfying C02's conditions, every schedule and map order", "why_tests_cant": "Cross references over unbounded registries and all schedules.", "anchors": ["client.go: writeInstanceMetric", "client.go: writeSingletonMetric", "mmvdump/writer.go: Write"]}
{"id": "C37", "title": "Client lifecycle", "statement": "Start makes the client active; Stop on an inactive client fails and changes nothing; Stop on an active one makes it inactive and leaves (or, with EraseFileOnStop, removes) the file; after Stop, registration works again and the next Start publishes old and new metrics with their current values.", "quantifier": "all histories of client calls, any success/failure of the OS calls", "why_tests_cant": "Unbounded histories, fault injection points.", "anchors": ["client.go: Start", "client.go: Stop", "bytewriter/memorymappedwriter.go: NewMemoryMappedWriter", "bytewriter/memorymappedwriter.go: Unmap"]}
{"id": "C38", "title": "Metrics stay usable after Stop", "statement": "After Stop, Set/Inc on a metric that had been published updates its in-memory value and touches no unmapped memory.", "quantifier": "all histories of Start/Stop/Set", "why_tests_cant": "A test must crash to notice.", "anchors": ["client.go: Stop", "metrics.go: newupdateClosure", "bytewriter/memorymappedwriter.go: Unmap"]}
{"id": "C39", "title": "The MMV file lives directly inside the mmv directory", "statement": "For every accepted client name the file's location is the entry called name directly inside <tmpdir>/mmv; names that would escape are rejected.", "quantifier": "all client names, all configured directories", "why_tests_cant": "All strings, including '.', '..' and the empty one.", "anchors": ["client.go: mmvFileLocation", "client.go: NewPCPClientWithRegistry"]}
{"id": "C40", "title": "All records are 8-byte aligned", "statement": "Every section offset and every record offset (TOC entry, domain, instance, metric, value, string) in a written file is a multiple of 8.", "quantifier": "every registry, every schedule", "why_tests_cant": "Unbounded sums.", "anchors": ["client.go: start", "mmvdump/mmvdump.go: unsafe casts"]}
{"id": "C41", "title": "A shorter string fully replaces a longer one", "statement": "After Set of a string of at most 256 bytes on an active client, the value's slot holds exactly the new string followed by NUL bytes, whatever was there before.", "quantifier": "all old and new strings up to 256 bytes", "why_tests_cant": "All pairs of strings.", "anchors": ["metrics.go: newupdateClosure"]}
{"id": "C42", "title": "Values set while Start runs are not lost", "statement": "If Set returned nil while Start was running concurrently, then once both have returned, the file shows that value (unless a later Set changed it).", "quantifier": "every interleaving of Set with Start", "why_tests_cant": "Needs a specific interleaving window.", "anchors": ["client.go: writeValue", "client.go: writeSingletonMetric", "metrics.go: pcpSingletonMetric.set"]}
{"id": "C43", "title": "Concurrent registration is safe", "statement": "When several goroutines register metrics concurrently, exactly one registration per name succeeds, registrations of different names all succeed, and the counts match the contents as in C12.", "quantifier": "every interleaving of any number of AddMetric calls", "why_tests_cant": "Needs check-then-act interleavings.", "anchors": ["registry.go: AddMetric", "registry.go: AddInstanceDomain", "registry.go: HasMetric"]}
{"id": "C44", "title": "A registry with an empty instance domain can be published", "statement": "Registering an instance domain without instances and calling Start publishes a readable file like any other registry.", "quantifier": "all registries containing an empty instance domain, all schedules", "why_tests_cant": "Corner case plus schedule dependence.", "anchors": ["client.go: tocCount", "client.go: writeTocBlock"]}
{"id": "C45", "title": "Texts never spill out of their slot", "statement": "No description, instance name, metric name or string value, at Start or by Set, writes outside its own slot: over-long ones are rejected or truncated.", "quantifier": "all strings of any length accepted by the constructors and by Set", "why_tests_cant": "Lengths beyond tested ones.", "anchors": ["metrics.go: newpcpMetricDesc", "instance_domain.go: NewPCPInstanceDomain", "client.go: writeMetricDesc", "metrics.go: newupdateClosure"]}
{"id": "C46", "title": "A metric's values refer to instances of its own domain", "statement": "Each published value of an instance metric carries the offset of the published record of that very instance of that metric's instance domain.", "quantifier": "all registries, including ones where a metric's domain object differs from the registered domain of the same name", "why_tests_cant": "Aliasing between distinct domain objects.", "anchors": ["registry.go: AddMetric", "client.go: writeInstanceMetric"]}
{"id": "C47", "title": "Any value implementing the metric interface that Register accepts can be published", "statement": "If Register accepted all metrics, Start terminates.", "quantifier": "all metrics accepted by Register, including user types embedding library metrics", "why_tests_cant": "Open-world interface implementations.", "anchors": ["client.go: writeMetrics", "registry.go: AddMetric"]}
{"id": "C48", "title": "Constructor validation", "statement": "Metric construction succeeds iff the name has 1..256 bytes, there are at most two descriptions and the initial value is compatible; domain construction iff the name is non-empty, every instance name has at most 256 bytes and there are at most two descriptions; the object built carries exactly the arguments (instances deduplicated).", "quantifier": "all arguments", "why_tests_cant": "All strings and lists.", "anchors": ["metrics.go: newpcpMetricDesc", "instance_domain.go: NewPCPInstanceDomain", "metrics.go: newpcpSingletonMetric"]}
{"id": "C49", "title": "Histogram bounds are clamped into the supported range", "statement": "NewPCPHistogram passes the HDR library bounds within 0..3600000000 with low <= high and 1..5 significant figures, equal to the requested ones when those are in range; low > high is rejected.", "quantifier": "all int64 bounds and all significant-figure counts", "why_tests_cant": "Boundary arithmetic over 2^128 pairs.", "anchors": ["metrics.go: normalize", "metrics.go: NewPCPHistogram"]}
{"id": "C50", "title": "PCP configuration parsing", "statement": "Each line contributes the assignment KEY=VALUE given by its leftmost maximal run of [A-Z0-9_] directly followed by '=' (value: the whole rest of the line), lines without one contribute nothing, and later lines override earlier ones.", "quantifier": "all configuration files", "why_tests_cant": "Regular-expression semantics over all lines.", "anchors": ["config.go: initConfig"]}
{"id": "C51", "title": "Commented-out configuration lines are ignored", "statement": "A line of pcp.conf starting with '#' does not change the configuration.", "quantifier": "all comment lines", "why_tests_cant": "Depends on unanchored regular-expression matching.", "anchors": ["config.go: initConfig", "config.go: pat"]}
{"id": "C52", "title": "Clients with separate registries do not affect each other", "statement": "Starting two clients that share an instance domain object (for example any two clients that publish histograms) concurrently publishes, for each of them, values that refer to that client's own instance records.", "quantifier": "every interleaving of two Start calls", "why_tests_cant": "Needs an interleaving of two Starts.", "anchors": ["speed.go: histogramIndom", "client.go: writeInstance", "client.go: writeInstanceMetric"]}
{"id": "C53", "title": "A failed Start leaves no trace", "statement": "If Start returns an error, the client is still inactive, registry and metrics are unchanged, and no file handle stays open.", "quantifier": "all OS failure points inside Start", "why_tests_cant": "Needs fault injection at every system call.", "anchors": ["client.go: Start", "bytewriter/memorymappedwriter.go: NewMemoryMappedWriter"]}
{"id": "C54", "title": "Header fields", "statement": "The header of a started client carries 'MMV', version 1 or 2, equal generation stamps, the exact number of TOC entries, the flag last set, the process id and the 12-bit hash of the client name.", "quantifier": "all clients, flags, schedules", "why_tests_cant": "All histories and schedules.", "anchors": ["client.go: writeHeaderBlock", "client.go: tocCount"]}
{"id": "C55", "title": "TOC entries describe the sections", "statement": "Dump's TOC list of a written file contains, in this order, entries for domains and instances (iff there are any), metrics, values, and strings (iff any), each with the section's true offset and item count (offset 0 for metrics and values when there are no metrics).", "quantifier": "every registry satisfying C02's conditions, every schedule", "why_tests_cant": "All registries and schedules of the TOC goroutines.", "anchors": ["client.go: writeTocBlock", "client.go: writeSingleToc"]}
{"id": "C56", "title": "The printed text of a written file", "statement": "mmvdump's Write, given the dump of a file written by Start, succeeds and prints exactly: the header lines; for every section its title with number, offset and count; then, in the order of their offsets, one block of text for every domain, instance, metric, value and string of the registry with its number, offset, names, types, semantics, units, value and descriptions, character by character; and an empty line after each section.", "quantifier": "every registry satisfying C02's conditions, every schedule, every float format", "why_tests_cant": "All registries; character-exact output for unbounded data.", "anchors": ["mmvdump/writer.go: Write", "mmvdump/writer.go: writeInstance, writeMetric, writeValue, writeString"]}
{"id": "C57", "title": "The printer and a failing output", "statement": "Whatever calls of the output writer fail, the printer has delivered exactly a prefix of the text it delivers to a writer that never fails, stops at the first failing call and returns its error.", "quantifier": "every dump, every sequence of outcomes of the writer", "why_tests_cant": "Needs fault injection at every call.", "anchors": ["mmvdump/writer.go: Write"]}
{"id": "C58", "title": "Numbers are printed in positional notation", "statement": "Every number up to 64 bits is printed as its digits in base 10 or 16 without leading zeros, with '-' before negative ones; reading the digits gives the number back.", "quantifier": "all 64-bit numbers, both bases", "why_tests_cant": "2^64 inputs.", "anchors": ["mmvdump/writer.go: writeComponents", "mmvdump/writer.go: writeValue"]}
{"id": "C59", "title": "Semantics are printed by name", "statement": "The semantics of a metric is printed by its name (NoSemantics, CounterSemantics, InstantSemantics, DiscreteSemantics).", "quantifier": "all four semantics", "why_tests_cant": "The generated string tables are never compared with the constants.", "anchors": ["mmvdump/pcp.go: Semantics", "mmvdump/semantics_string.go: String"]}
{"id": "C60", "title": "Types are printed by name", "statement": "Each known type number is printed by its name and each other number n as Type(n).", "quantifier": "all 2^32 type numbers", "why_tests_cant": "2^32 inputs.", "anchors": ["mmvdump/type_string.go: String"]}
{"id": "C61", "title": "The printed unit identifies the unit", "statement": "Two units with valid scales that are printed alike have the same dimensions and the same scales in every dimension that is not 0.", "quantifier": "all 2^32 unit words", "why_tests_cant": "All pairs of words.", "anchors": ["mmvdump/pcp.go: Unit.String"]}
{"id": "C62", "title": "A metric registered while Start runs is published or refused", "statement": "If other goroutines register metrics and domains while Start runs, then Start does not crash, and when it has returned the file describes every metric that was accepted.", "quantifier": "all registries, all registrations, all moments at which they happen, all interleavings of Start's goroutines", "why_tests_cant": "Registration does not take the client's lock; the outcome depends on the moment relative to three points inside Start.", "anchors": ["client.go: PCPClient.Start", "client.go: PCPClient.start", "client.go: PCPClient.Length", "registry.go: PCPRegistry.AddMetric"]}
{"id": "C63", "title": "Mappings and file handles are released", "statement": "Beyond the mapping and the handle of an active client's file the process holds none: after Stop it holds what it held before Start, in every history of calls.", "quantifier": "all histories of creating, starting and stopping clients, all failures of system calls", "why_tests_cant": "Leaks show only after long histories or with failing system calls.", "anchors": ["client.go: PCPClient.Start", "client.go: PCPClient.Stop", "bytewriter/memorymappedwriter.go: NewMemoryMappedWriter", "bytewriter/memorymappedwriter.go: Unmap"]}
{"id": "C64", "title": "A metric keeps the unit it was made with", "statement": "Start writes for every metric the unit that was passed to its constructor, as it was at that moment; units that the program derives later do not change it.", "quantifier": "all programs that make units, extend them and make metrics with them, in all orders; all units", "why_tests_cant": "The methods of a unit change it in place and return it; whether an earlier metric is affected depends on which units share a structure, over all programs.", "anchors": ["metrics.go: metricUnit.Space", "metrics.go: metricUnit.Time", "metrics.go: metricUnit.Count", "metrics.go: newpcpMetricDesc", "client.go: PCPClient.writeMetricDesc"]}
{"id": "C65", "title": "The text of an enumeration value or unit identifies it", "statement": "String() of types, semantics, update flags and unit constants prints the name of each constant and different texts for different values; String() of a unit never panics, and two units that the library can make have the same text only if they are the same unit.", "quantifier": "all 2^32 (2^64) values of the enumerations, all pairs of unit words", "why_tests_cant": "The claim is about all pairs of words; tests compare a few texts.", "anchors": ["metrics.go: metricUnit.String", "metrictype_string.go: MetricType.String", "metricsemantics_string.go: MetricSemantics.String", "spaceunit_string.go: SpaceUnit.String"]}
{"id": "C66", "title": "Which outcomes Dump can have, exactly", "statement": "For every byte slice it is decided by the header, the table of contents and the length alone whether Dump can return a result, return an error, panic or block for ever: an explicit condition for each of the four outcomes is necessary and sufficient, over all schedules of its goroutines.", "quantifier": "all byte slices shorter than 2^63, all schedules of the reading goroutines", "why_tests_cant": "The condition is necessary and sufficient over all inputs; some outcomes depend on the order in which goroutines finish.", "anchors": ["mmvdump/mmvdump.go: Dump", "mmvdump/mmvdump.go: readHeader", "mmvdump/mmvdump.go: readTocs", "mmvdump/mmvdump.go: readComponents"]}
{"id": "C67", "title": "A reader that reads the file piece by piece while Start runs", "statement": "Another process reads the bytes of the file one after another while Start runs, each at its own time. If Dump accepts the bytes that were read, its result describes the registry.", "quantifier": "all registries, all schedules of Start's goroutines, all times at which the bytes are read", "why_tests_cant": "The number of interleavings of the writing goroutines with the reading process is astronomic; a torn read needs a precise timing.", "anchors": ["client.go: PCPClient.start", "client.go: PCPClient.writeHeaderBlock", "mmvdump/mmvdump.go: readHeader"]}
{"id": "C68", "title": "The goroutines of Start have no data race", "statement": "At no moment of a run of Start do two of its goroutines stand before accesses to the same byte of the file, or the same shared variable, of which one is a store.", "quantifier": "all registries, all schedules of Start's goroutines, all reachable states", "why_tests_cant": "The race detector sees only the runs that happen; the theorem is about every interleaving of every registry.", "anchors": ["client.go: PCPClient.start", "client.go: PCPClient.writeSingletonMetric", "client.go: PCPClient.writeInstanceMetric", "client.go: PCPClient.writeStringBlock"]}
{"id": "C69", "title": "Dump of the same bytes always has the same outcome", "statement": "Dump called twice with the same bytes has the same outcome both times: an error, a panic, blocking for ever, or results with the same header, the same table of contents and the same maps.", "quantifier": "all byte slices shorter than 2^63, all pairs of schedules of the reading goroutines", "why_tests_cant": "A test sees the schedules that happen; the theorem compares every schedule with every other one, for every input.", "anchors": ["mmvdump/mmvdump.go: Dump", "mmvdump/mmvdump.go: readComponents", "mmvdump/mmvdump.go: readItems"]}
{"id": "C70", "title": "Whoever opens the path of an active client finds the description of its registry", "statement": "While a client is active, the file at its path, opened by any other program, is accepted by Dump and describes the present contents of the client's registry, whatever other clients in the same or other programs do.", "quantifier": "all numbers of programs with a client each, all interleavings of their calls, all failures of system calls", "why_tests_cant": "The histories of several programs with failing system calls are unbounded; a test runs one program on a working file system.", "anchors": ["client.go: PCPClient.Start", "client.go: PCPClient.Stop", "bytewriter/memorymappedwriter.go: NewMemoryMappedWriter", "bytewriter/memorymappedwriter.go: Unmap"]}
{"id": "C71", "title": "Stop while goroutines use values", "statement": "Stop may be called while other goroutines call operations of the metrics of the client: no goroutine ever writes to the memory after Stop has unmapped it.", "quantifier": "any number of goroutines and operations, every interleaving of their individual accesses with the unmapping", "why_tests_cant": "The window between reading the closure and the last byte written is a few instructions; schedules are unbounded.", "anchors": ["client.go: PCPClient.Stop", "metrics.go: pcpSingletonMetric.set", "metrics.go: pcpInstanceMetric.setInstance", "bytewriter/memorymappedwriter.go: Unmap"]}
{"id": "C72", "title": "Exported readers never race with operations that change values", "statement": "Every exported method that reads a value of a metric or of a histogram (Val, ValInstance, String, Percentile, Buckets, High, Low, Max, Min, Mean, ...) can be called while other goroutines call operations of the same metric, without a data race.", "quantifier": "any number of goroutines and operations, every interleaving of their individual accesses", "why_tests_cant": "The race detector only sees the schedules that happen; the claim is about all of them.", "anchors": ["metrics.go: PCPSingletonMetric.String", "metrics.go: PCPHistogram.Percentile", "metrics.go: PCPHistogram.Buckets", "metrics.go: PCPHistogram.High", "metrics.go: PCPHistogram.Low"]}
{"id": "C73", "title": "A metric registered with two clients", "statement": "A metric that is registered with the registries of two active clients shows its present value in the files of both.", "quantifier": "all registries, all histories of calls after the second Start", "why_tests_cant": "Histories and registries are unbounded; the tests have one client at a time.", "anchors": ["client.go: writeSingletonMetric", "client.go: writeInstanceMetric", "metrics.go: pcpSingletonMetric.set", "metrics.go: pcpInstanceMetric.setInstance"]}
{"id": "C74", "title": "Concurrent registrations have no data race", "statement": "Goroutines that register metrics in one registry at the same time, or read its counts, never access the same field at the same moment with one of them writing.", "quantifier": "any number of goroutines, any metrics, every interleaving of their individual accesses to the fields of the registry", "why_tests_cant": "The race detector only sees the schedules that happen; the claim is about all of them.", "anchors": ["registry.go: PCPRegistry.AddInstanceDomain", "registry.go: PCPRegistry.addMetric", "registry.go: PCPRegistry.ValuesCount", "registry.go: PCPRegistry.StringCount", "registry.go: PCPRegistry.addInstanceMetricByString"]}
{"id": "C75", "title": "mmvdump on the file of an active client prints the present contents of its registry", "statement": "If programs whose clients have different paths make any calls (no failing Start of an active client), and mmvdump is then run with the path of an active client, it ends normally and prints exactly the path, the header of the file, and for each section its title and one item for each registered object with its present value.", "quantifier": "any number of programs, all histories of calls with any failures of system calls, all schedules of the goroutines of Start and Dump", "why_tests_cant": "Histories, registries and schedules are unbounded; the tool has no tests.", "anchors": ["mmvdump/cmd/mmvdump/main.go: main", "mmvdump/mmvdump.go: Dump", "mmvdump/writer.go: Write", "client.go: PCPClient.Start"]}
{"id": "C76", "title": "The argument of mmvdump names the file that is read", "statement": "mmvdump <file> reads the file with that name, and its output depends on nothing else.", "quantifier": "all names, file contents and schedules", "why_tests_cant": "All names and contents; the tool has no tests.", "anchors": ["mmvdump/cmd/mmvdump/main.go: main"]}
{"id": "C77", "title": "mmvdump ends normally only if everything was written", "statement": "If mmvdump ends without a panic after reading a file, its standard output has accepted the complete text.", "quantifier": "all files, all outcomes of the individual writes", "why_tests_cant": "All patterns of failing writes.", "anchors": ["mmvdump/cmd/mmvdump/main.go: main"]}
{"id": "C78", "title": "The file can be read at any moment", "statement": "A program that reads the mapped file at any moment while goroutines use the metrics of the running client finds a file that Dump accepts, with all metrics at the same places, in which every value is the value that the metric has before or after the operation that is running.", "quantifier": "all running clients, any number of goroutines running any programs of metric operations, every reachable state of every interleaving of their single accesses (not only states in which no operation runs)", "why_tests_cant": "A test cannot stop the program between any two stores of an operation and dump the file.", "anchors": ["metrics.go: newupdateClosure", "metrics.go: singletonMetric.set", "metrics.go: instanceMetric.setInstance", "metrics.go: PCPHistogram.update", "mmvdump/mmvdump.go: Dump"]}
{"id": "C79", "title": "The texts of domains and metrics identify them", "statement": "String() of an instance domain always gives the same text, and two domains with the same text have the same name and instances; String() of a singleton metric shows its value, so that different values have different texts; Description() determines the short and the long description.", "quantifier": "all domains and all orders in which their maps can be read, all values of every type, all descriptions", "why_tests_cant": "Go chooses the order of a map at run time; a test sees one order per call and a few names.", "anchors": ["instance_domain.go: PCPInstanceDomain.String", "instance_domain.go: PCPInstanceDomain.Instances", "instance_domain.go: PCPInstanceDomain.Description", "metrics.go: PCPSingletonMetric.String", "metrics.go: pcpMetricDesc.Description"]}
{"id": "C80", "title": "The example programs run and publish what they measure", "statement": "Every program in the directory examples comes to its end without a failing library call, whatever is in the file system before, and the file it leaves is accepted by the reader and shows, by name, the values that the program counted or measured.", "quantifier": "all numbers of iterations and requests, all orders of the goroutines' operations, all measured values, all previous contents of the file system", "why_tests_cant": "The examples loop forever or read clocks, networks and the runtime; a test can run a few iterations of them and see one interleaving.", "anchors": ["examples/simple/main.go: main", "examples/singleton_counter/main.go: main", "examples/http_counter/main.go: main", "examples/simple_string_metric/main.go: main", "examples/singleton_string/main.go: main", "examples/instance_string/main.go: main", "examples/acme/main.go: main", "examples/runtime/main.go: main", "examples/basic_histogram/main.go: main", "examples/download/main.go: main"]}
{"id": "C81", "title": "RegisterString registers exactly the metric it is asked for", "statement": "RegisterString succeeds exactly if the string is in the grammar, the metric name has at most 256 bytes and is not taken, the registry is not mapped, and the value fits: without a bracket a single value compatible with the type, with a bracket an Instances map with one compatible value for each instance of the domain of that name, which is the registered one (as many instances as listed, all listed ones among them) or a new one. Then exactly one metric is added, with the given name, type, semantics, unit, no descriptions and the given values, on that domain.", "quantifier": "all registries built by registry calls, all registration strings, all values, types, semantics and units", "why_tests_cant": "The conditions concern all earlier registrations and all strings; the arguments pass through several functions of the same parameter types.", "anchors": ["registry.go: AddMetricByString", "registry.go: addSingletonMetricByString", "registry.go: addInstanceMetricByString", "registry.go: AddInstanceDomainByName"]}
{"id": "C82", "title": "Concurrent RegisterString calls do not disturb each other", "statement": "If registering some strings one after the other succeeds in every order, then goroutines may register them at the same time: all calls succeed, each new metric belongs to a registered instance domain, and the registry's counts match its contents. (As stated this is false, see the theorems; it holds when each goroutine alone would succeed with all its calls, the metric names differ, and no two goroutines use the same new domain. Then in the end exactly the metrics and domains that each would have added alone have been added. Whatever the calls, no execution gets stuck or goes on forever.)", "quantifier": "all registries built by registry calls, all programs of any number of goroutines, all interleavings", "why_tests_cant": "RegisterString looks for the domain, creates it and registers the metric in separate critical sections and reads the domain map without a lock; which interleavings go wrong cannot be forced by a test.", "anchors": ["registry.go: AddMetricByString", "registry.go: addInstanceMetricByString", "registry.go: AddInstanceDomainByName", "registry.go: AddInstanceDomain", "registry.go: AddMetric"]}
{"id": "C83", "title": "Leaving out an argument is reported", "statement": "Passing nil where an object is wanted (a unit, an instance domain, a metric, a registry) makes the call return an error, or at the latest Start returns one. (As stated this is false, see the theorems: no constructor and no registration looks at the unit, and with one nil unit every execution of Start panics; it leaves a file that no reader takes for complete. With all units there Start returns.)", "quantifier": "all registries built by registry calls, all choices of metrics without a unit, all schedules, all moments during Start", "why_tests_cant": "The panic happens in a goroutine started by Start, so a test that provokes it dies; and that it happens under every schedule, and what the file looks like then, no test can show.", "anchors": ["client.go: writeMetricDesc", "client.go: start", "metrics.go: newpcpMetricDesc", "registry.go: AddMetric", "registry.go: AddInstanceDomain"]}
{"id": "C84", "title": "Identifiers of instances, domains and clients are unique", "statement": "Different instances of a domain have different instance ids, different domains of a registry have different domain ids, and clients with different names have different cluster ids, so that a reader of the file can tell them apart by id. (As stated this is false, see the theorems: the ids are hashes of 32, 22 and 12 bits of the names and nothing looks for collisions. Names that differ in one byte, or for domains and instances in two neighbouring bytes, never collide.)", "quantifier": "all registries built by registry calls, all client histories, all names", "why_tests_cant": "Collisions are sparse among sampled names; that none exists among names differing in one or two neighbouring bytes, whatever the rest of the name is, ranges over unbounded strings.", "anchors": ["speed.go: hash", "instance_domain.go: NewPCPInstanceDomain", "instance.go: newpcpInstance", "client.go: NewPCPClientWithRegistry", "registry.go: AddInstanceDomain"]}
{"id": "C85", "title": "A reader notices every restart by the generation number", "statement": "While a client is active, the generation in its file is the clock second of its last successful Start, and a file written by a later Start has another generation than one written before, so a reader that compares generations notices that the contents were replaced. (As stated the second half is false, see the theorems: the generation is time.Now().Unix(), so a Stop, a registration and a Start within one second replace the contents under the same generation.)", "quantifier": "all histories of calls on one client, all clock readings", "why_tests_cant": "The file depends on the whole history of starts, stops and clock readings; a test samples a few of them and rarely restarts within one second.", "anchors": ["client.go: writeHeaderBlock", "client.go: Start", "client.go: Stop"]}
{"id": "C86", "title": "Operations on values fail exactly on their stated conditions, and Must variants panic exactly then", "statement": "For a metric in any reachable state, published or not, and passed strings of at most 256 bytes: Set takes exactly the values of the metric's type and the int, uint and float64 values that the type can hold; SetInstance also needs an existing instance; a counter refuses exactly smaller values and negative increments; gauges refuse nothing; Start and Reset of a timer need it stopped and Stop needs it started; the operations of vectors need the instance. A refused operation returns an error and changes nothing (operations without an error result panic). Each Must variant has the same effect and panics exactly if the operation is refused.", "quantifier": "all metrics and states, all operations and arguments, all iteration orders", "why_tests_cant": "Universal over values, types and states; a panic in an untested case would end the instrumented program.", "anchors": ["metrics.go: Set, MustSet", "metrics.go: Inc, MustInc, Up", "metrics.go: SetInstance, MustSetInstance", "metrics.go: IsCompatible", "metrics.go: MustRecord, MustRecordN", "client.go: MustStart, MustStop, MustRegister"]}
{"id": "C87", "title": "Operations that name an unknown instance are refused", "statement": "Setting, incrementing, decrementing or reading an instance that is not in the metric's domain returns an error and changes nothing, for instance metrics, counter vectors and gauge vectors. (As stated this is false, see the theorems: Inc(0, unknown) of a counter vector returns nil, because the amount is looked at before the instance.)", "quantifier": "all instance metrics and vectors, all names, all operations and arguments", "why_tests_cant": "Universal over names and arguments; the exception is one argument value of one of the operations.", "anchors": ["metrics.go: PCPCounterVector.Inc", "metrics.go: PCPGaugeVector.Inc", "metrics.go: setInstance", "metrics.go: valInstance"]}
{"id": "C88", "title": "The library does the same where int has 32 bits", "statement": "On a platform where Go's int and uint have 32 bits, constructors, Set and SetInstance accept the same numbers and store the same values as where they have 64 bits, and the file has the same length and layout. (As stated this is false of files of 2^31 bytes and more, see the theorems: Length is an int and wraps around, and Start panics after it has removed the old file.)", "quantifier": "all values, types and metrics; all registries built by registry calls", "why_tests_cant": "The tests run on the platform at hand, and files of two gigabytes are beyond unit tests; the values range over all ints.", "anchors": ["metrics.go: isCompatibleInt, isCompatibleUint", "metrics.go: resolveInt", "client.go: Length", "bytewriter/memorymappedwriter.go: NewMemoryMappedWriter"]}
{"id": "C89", "title": "Every method of ByteWriter writes all its bytes or nothing", "statement": "Each of the nine Write methods, at any offset, either finds room, writes exactly its bytes (numbers little-endian in 4 or 8 bytes, strings as they are) and returns the offset after them, or finds no room and then fails or panics with the buffer unchanged; WriteVal of a type without fixed size fails. Each Must method does the same when the method succeeds and panics exactly when it does not. Writers made by NewByteWriterSlice from slices of one array share it: a write through one changes exactly its bytes, and every other writer shows them exactly where the slices overlap.", "quantifier": "all methods and values, all buffers, all offsets that are ints, all slices of an array", "why_tests_cant": "The offsets range over 2^64 values including negative ones and sums that wrap around; the values over all numbers and strings.", "anchors": ["bytewriter/bytewriter.go: Write, WriteVal, WriteString, WriteInt32, WriteFloat64", "bytewriter/bytewriter.go: MustWrite, MustWriteVal, MustWriteString", "bytewriter/bytewriter.go: NewByteWriterSlice, Len, Bytes"]}
{"id": "C90", "title": "What is registered stays", "statement": "Whatever a program does after a registration (further registrations that succeed or fail, operations on values, Start and Stop with any results of system calls), every registered metric stays registered in its place as the same object, with the same kind, name, id, type, semantics, unit, descriptions, domain and instances, and every registered domain stays as it is; its values change only by operations on it. The counts and Length never get smaller, and the format never goes back from version 2 to version 1.", "quantifier": "all histories of client, registry and value calls, with any number of clients", "why_tests_cant": "It is a statement about all sequences of calls and all failures of system calls.", "anchors": ["registry.go: AddMetric, AddInstanceDomain, AddMetricByString", "client.go: Start, Stop, Length", "metrics.go: pcpMetricDesc, ID, Name, Semantics, Unit, Type"]}
{"id": "C91", "title": "A file cut off anywhere is refused, and bytes after its end are ignored", "statement": "If any number of bytes is missing at the end of the file of a running client, Dump returns an error: it neither panics nor hangs nor returns part of the file, whatever the order in which its goroutines run. If any bytes follow the end of the file, Dump has exactly the outcomes it has without them. Both hold for any file whose sections lie within it, are of known and different types and end with its last byte (for the second one only the first two are needed).", "quantifier": "all running clients after any calls of value operations, all lengths, all further bytes, all orders of the goroutines of Dump; all files with such a table of contents", "why_tests_cant": "Lengths, contents and schedules are all unbounded.", "anchors": ["mmvdump/mmvdump.go: Dump, readHeader, readTocs, readComponents", "mmvdump/mmvdump.go: readInstances, readMetrics, readValues, readStrings", "client.go: Length, tocCount, writeTocSection"]}
{"id": "C92", "title": "Damaged files: what Dump notices", "statement": "The possible outcomes of Dump (error, crash, waiting for ever, a result) depend on nothing but the length, the bytes MMV, the version, whether the two generations are equal, the number of sections and the table of contents. So for the file of a running client: one wrong byte in MMV or in one of the generations is refused; whatever the fourth byte, the flag, the process, the cluster and all sections are changed to, Dump returns a result; and a section type changed to an unknown one makes it wait for ever.", "quantifier": "all pairs of files below 2^63 bytes; all running clients, all changed bytes, all orders of the goroutines of Dump", "why_tests_cant": "The damaged bytes are arbitrary and so is the size of the file.", "anchors": ["mmvdump/mmvdump.go: Dump, readHeader, readTocs, readComponents", "mmvdump/mmvdump.go: readItems, readInstance, readMetric, readValue, readString"]}
{"id": "C93", "title": "Each kind of metric is in the file what its documentation says", "statement": "In the file of a running client every registered metric has a record under its name. Counters are 64-bit integers with counter semantics and unit one; gauges are doubles with instant semantics and unit one; timers are doubles with discrete semantics; all three, and singleton metrics, have no domain and exactly one value. Counter vectors and gauge vectors are the same with the domain of the name metric_name.indom. A histogram is made of doubles with instant semantics, and has values for exactly the instances min, max, mean, variance and standard_deviation. Every metric with a domain has values for exactly the instances of the domain. This holds whatever was registered otherwise, in whatever order, and whatever operations were applied.", "quantifier": "all programs that make, register and use metrics before and after Start, all schedules of Start and of Dump", "why_tests_cant": "Tests look at single metrics in small registries; the theorem follows the constructor's choices through every history of registrations and operations into the bytes of the file.", "anchors": ["README.md: Walkthrough", "metrics.go: NewPCPCounter", "metrics.go: NewPCPGauge", "metrics.go: NewPCPTimer", "metrics.go: generateInstanceMetric", "metrics.go: NewPCPHistogram", "client.go: writeMetrics"]}
{"id": "C94", "title": "The file determines what the registry holds", "statement": "If the files of two running clients, of the same or of different programs, have the same bytes, then their registries hold the same metrics (name, item number, type, semantics, unit, number of the domain, both texts), the same value for every instance of every metric, the same domains (number, number of instances, texts) and the same instances, in some order, and the clients have the same flag, generation, process and cluster numbers. So no two registries that differ in any of these share a file.", "quantifier": "all pairs of programs, histories of registrations and operations, and schedules of Start", "why_tests_cant": "It compares all pairs of registries: a test can only show that some differ.", "anchors": ["client.go: start", "client.go: writeMetrics", "client.go: writeInstanceDomains", "mmvdump/mmvdump.go: Dump"]}
{"id": "C95", "title": "A counter used by several goroutines never goes backwards", "statement": "While any number of goroutines call Val, Set and Inc of a counter of a running client (or of an instance of a counter vector, while others use its other instances), and anything on other metrics, a goroutine that asks for the counter's value again and again gets numbers that never go down and are never below the value at the start; of two calls of Val by any goroutines, one that begins after the other has returned gives no smaller number; and whenever no goroutine is inside a call, the counter's value, in the metric and as Dump reads it from the file, is not below the value at the start. The only condition is that in no order of the calls an increment exceeds the largest int64 (C19 shows that then the counter does go down).", "quantifier": "all active clients, numbers of goroutines, programs and schedules", "why_tests_cant": "The schedules of the goroutines are unbounded in number; a stress test samples a few.", "anchors": ["metrics.go: PCPCounter.Val", "metrics.go: PCPCounter.Set", "metrics.go: PCPCounter.Inc"]}
{"id": "C96", "title": "Start and Stop of a timer alternate, whichever goroutines call them", "statement": "While any number of goroutines use the metrics of a running client: between two successful calls of Start of a timer there is a call of Stop of it, and between two successful calls of Stop a call of Start, in the order in which the calls get the timer's lock. The first call of Start of a timer that does not run succeeds, and every later one before a call of Stop fails; so of any number of goroutines that start a timer at the same time exactly one succeeds.", "quantifier": "all active clients, numbers of goroutines, programs and schedules", "why_tests_cant": "The schedules of the goroutines are unbounded in number; a stress test samples a few.", "anchors": ["metrics.go: PCPTimer.Start", "metrics.go: PCPTimer.Stop"]}
{"id": "C97", "title": "Set writes to the file exactly when the value changes, and always for a NaN", "statement": "Setting a compatible number that is equal to the stored value (the same bits, or a zero where a zero of either sign is stored) changes neither the metric nor the file. Setting a number that differs from the stored value, or any NaN, even the NaN that is stored already, writes its bytes at the place of the value in the file and nothing else, whatever bytes are there. This holds for single values and for instances.", "quantifier": "all metrics, stored values, set values and file contents", "why_tests_cant": "All pairs of 64-bit values, including all NaNs, with any contents of the file.", "anchors": ["metrics.go: pcpSingletonMetric.set", "metrics.go: pcpInstanceMetric.setInstance", "metrics.go: newupdateClosure"]}
