{"id": "C01", "title": "Criteria combinators are Boolean logic", "statement": "Evaluating All(cs) on a record returns true exactly when every criterion in cs is true of that record (true for the empty slice); Any(cs) exactly when some criterion is (false for the empty slice); And, Or and Not are conjunction, disjunction and negation of the component results.", "quantifier": "every slice of criteria of any length, every criterion function, every record", "why_tests_cant": "slices and predicates are unbounded; a test fixes a handful of predicates on a handful of records", "anchors": ["core/policyengine/policy/predicates.go: Criterion, And, Or, Not, True, False, All, Any"]}
{"id": "C02", "title": "Disposition of a record by the interpreter", "statement": "A record handed to a worker is forwarded downstream at most once; it is forwarded exactly when no enabled filter matches it and either the engine is in enrich mode or at least one rule fires on it.", "quantifier": "every rule set, filter set, mode, record", "why_tests_cant": "rule sets, filters and records are unbounded", "anchors": ["core/policyengine/engine/interpreter.go: worker, evalFilters"]}
{"id": "C03", "title": "Rules attached to a record are exactly the rules that fire, in policy order", "statement": "When a record is not dropped by a filter, the rules added to its context are exactly those that are enabled, whose prefilter admits the record and whose condition is true of it, in the order in which they were compiled, each once; disabled rules never contribute; a dropped record gets no rules and runs no action.", "quantifier": "every rule list, record and (context-independent) conditions", "why_tests_cant": "must hold for every list of rules and every record", "anchors": ["core/policyengine/engine/interpreter.go: worker", "core/policyengine/source/flatrecord/contextualizer.go: AddRules"]}
{"id": "C04", "title": "Actions run exactly for firing rules, in order, and failures do not stop processing", "statement": "For each rule that fires, the registered actions it names are invoked on the record in the order listed, unknown names are skipped, an action's error neither prevents later actions or rules nor the forwarding of the record; no action runs for a rule that does not fire. When the same action name is registered twice the last registration is the one invoked.", "quantifier": "every rule list, action registry, action outcome", "why_tests_cant": "combinations of rules, registries and failures are unbounded", "anchors": ["core/policyengine/engine/actionhandler.go: HandleActions, loadUserActions", "core/policyengine/engine/interpreter.go: worker"]}
{"id": "C05", "title": "Worker pool processes every accepted record exactly once", "statement": "For any number of workers and any interleaving, when StopWorkers returns every record accepted by ProcessAsync before it has been processed by exactly one worker exactly once, nothing else has been processed, and the records emitted are exactly (as a multiset) those the sequential worker would emit.", "quantifier": "every worker count, every sequence of submissions, every schedule", "why_tests_cant": "the number of interleavings is unbounded; a test observes one", "anchors": ["core/policyengine/engine/interpreter.go: StartWorkers, StopWorkers, ProcessAsync, worker"]}
{"id": "C06", "title": "With one worker the engine preserves record order", "statement": "With concurrency 1 the records that the engine emits are a subsequence of the submitted ones in submission order.", "quantifier": "every submission sequence, every schedule", "why_tests_cant": "schedules and sequences are unbounded", "anchors": ["core/policyengine/engine/interpreter.go: worker"]}
{"id": "C07", "title": "Worker pool makes progress / shutdown terminates", "statement": "With at least one worker the pool never deadlocks: from any reachable state in which submitted records are outstanding some step is possible and every schedule that keeps taking steps after close reaches the state where StopWorkers returns; with zero workers (configuration concurrency 0) a submission can never complete.", "quantifier": "every worker count, every reachable state", "why_tests_cant": "absence of deadlock quantifies over all reachable states of all schedules", "anchors": ["core/policyengine/engine/interpreter.go: StartWorkers, StopWorkers, worker"]}
{"id": "C08", "title": "Policy hot-swap is atomic per record and ordered", "statement": "While policies are being replaced at run time each input record is evaluated under exactly one policy set; all records submitted before a swap are evaluated (completely) under the old set before any record is evaluated under the new set; no record is lost or duplicated by a swap.", "quantifier": "every input sequence, every clock reading sequence, every arrival pattern of new policy sets, every worker schedule", "why_tests_cant": "depends on the timing of policy arrivals relative to records and worker schedules", "anchors": ["core/policyengine/policyengine.go: Process", "core/policyengine/engine/interpreter.go: StopWorkers"]}
{"id": "C09", "title": "Policy refresh is checked at most once per interval and takes the oldest pending set", "statement": "The engine adopts a new policy set only when more than the configured monitor interval has elapsed since the last check (or start), at most one per check, in the order they were compiled; without a monitor the policies never change.", "quantifier": "every sequence of clock readings, every queue of compiled policy sets", "why_tests_cant": "all timing histories", "anchors": ["core/policyengine/policyengine.go: Process", "core/policyengine/monitor/localpolicymonitor.go: CheckForPolicyUpdate"]}
{"id": "C10", "title": "A policy update that fails to compile never displaces the running policies", "statement": "If compiling the updated policy directory fails, the queue of pending policy sets is unchanged, so the running policy set stays in force; a successful compile is queued unless ten sets are already pending, in which case it is discarded.", "quantifier": "every history of policy directory changes and compile outcomes", "why_tests_cant": "histories of updates are unbounded", "anchors": ["core/policyengine/monitor/localpolicymonitor.go: CheckForPolicyUpdate, StartMonitor"]}
{"id": "C11", "title": "Policy change detection", "statement": "The monitor recompiles exactly when the set of .yaml files in the directory or the checksum of one of them differs from what it recorded at the previous check; a check with no difference never recompiles.", "quantifier": "every pair of successive directory contents", "why_tests_cant": "directory contents and histories are unbounded", "anchors": ["core/policyengine/monitor/localpolicymonitor.go: calculateChecksum, CheckForPolicyUpdate, hasModifiedYaml"]}
{"id": "C12", "title": "Bypass and fan-out", "statement": "In enrich mode with no policies every record is forwarded unchanged, in order; every forwarded record is delivered to every configured output channel exactly once and all output channels receive the same sequence; in alert mode without policies the engine refuses to start.", "quantifier": "every record sequence, every number of output channels, every configuration", "why_tests_cant": "unbounded sequences and channel lists", "anchors": ["core/policyengine/policyengine.go: Init, Process, out"]}
{"id": "C13", "title": "String comparison over multi-valued attributes", "statement": "A string comparison between two attributes holds exactly when some comma-separated component of the left value and some comma-separated component of the right value satisfy the operator.", "quantifier": "every pair of strings, every operator", "why_tests_cant": "strings are unbounded", "anchors": ["core/policyengine/source/flatrecord/operations.go: compareStr, Compare", "core/policyengine/common/utils.go"]}
{"id": "C14", "title": "Operator semantics", "statement": "eq/contains/startswith/endswith mean list-theoretic equality/infix/prefix/suffix; the case-insensitive variants mean the same on case-folded strings; lt/le/gt/ge on integers are the integer order; looking up an operator for a type that does not define it reports an error.", "quantifier": "every pair of operands", "why_tests_cant": "operands are unbounded", "anchors": ["core/policyengine/source/operators.go: StrOps, IntOps"]}
{"id": "C15", "title": "FoldAny and FoldAll", "statement": "FoldAny(attr, values, op) is true of a record exactly when the comparison holds for at least one value; FoldAll exactly when it holds for all; a regular expression criterion holds exactly when there is a non-empty match, and one that does not compile is an error and never holds.", "quantifier": "every value list, record and operator", "why_tests_cant": "lists and records are unbounded", "anchors": ["core/policyengine/source/flatrecord/operations.go: FoldAny, FoldAll"]}
{"id": "C16", "title": "Existence", "statement": "exists(attr) is true of a record exactly when the attribute's value is non-zero/non-empty (an attribute name that is not a field counts as its own literal text).", "quantifier": "every attribute and record", "why_tests_cant": "records unbounded", "anchors": ["core/policyengine/source/flatrecord/operations.go: Exists", "core/policyengine/source/flatrecord/fieldmapper.go: Map"]}
{"id": "C17", "title": "Attribute resolution", "statement": "Resolving an attribute as a string yields, for a field name, the field's value rendered as text (booleans as true/false, integers in decimal, strings without one pair of bounding quotes), and for anything else the literal itself without bounding quotes; resolving as an integer yields the field's integer value or the literal parsed as a decimal, and 0 otherwise.", "quantifier": "every attribute text and record", "why_tests_cant": "texts and records unbounded", "anchors": ["core/policyengine/source/flatrecord/fieldmapper.go: Map, MapInt, MapStr", "core/policyengine/common/utils.go: TrimBoundingQuotes"]}
{"id": "C18", "title": "Prefilter soundness", "statement": "A rule with a prefilter list can only fire on records whose type is in the list; a rule with an empty list is never blocked by it; if a rule's condition implies its prefilter types, removing the prefilter does not change the engine's output.", "quantifier": "every rule, record", "why_tests_cant": "unbounded", "anchors": ["core/policyengine/source/flatrecord/prefilter.go: IsApplicable", "core/policyengine/engine/interpreter.go: worker"]}
{"id": "C19", "title": "Record getters by source", "statement": "Reading an attribute for a given source returns the value stored by the first section of that source, and the zero value when no section has that source; reading never changes the record.", "quantifier": "every record layout", "why_tests_cant": "any number of sources", "anchors": ["core/policyengine/source/flatrecord/record.go: GetInt, GetStr, GetIntArray, GetSvcArray"]}
{"id": "C20", "title": "Ancestor attributes", "statement": "sf.proc.aname/aexe/acmdline/apid are the comma-joined names/exes/command lines/pids of the process and all its recorded ancestors nearest first; sf.pproc.* are those of the immediate parent, and zero if there is none. A comparison with sf.proc.aname = x therefore matches iff the process itself or some ancestor has that name (for names without commas).", "quantifier": "every ancestor chain and record", "why_tests_cant": "chains unbounded", "anchors": ["core/policyengine/source/flatrecord/record.go: GetCachedValue"]}
{"id": "C21", "title": "Record context accumulates", "statement": "Rules, tags and hashes added to a record's context are never lost or reordered; hash entries are write-once per type; alert status reads back what was last set.", "quantifier": "every sequence of context operations", "why_tests_cant": "histories unbounded", "anchors": ["core/policyengine/source/flatrecord/record.go: Context"]}
{"id": "C22", "title": "Falco condition semantics", "statement": "A compiled Falco condition evaluates on every record to the Boolean meaning of its text: 'or' of 'and's of possibly negated terms, parentheses, macro references replaced by the meaning of the referenced condition, atoms by the comparison they denote (!= is the negation of =), undefined references false.", "quantifier": "every condition syntax tree, every acyclic macro environment, every record", "why_tests_cant": "conditions, macro environments and records are unbounded", "anchors": ["core/policyengine/policy/falco/compiler.go: visitExpression, visitTerm"]}
{"id": "C23", "title": "Falco macro and list definitions terminate when acyclic", "statement": "Compilation of a condition terminates whenever macros and lists are acyclic, and the result does not depend on how deep the nesting is; a macro or list that refers to itself, directly or indirectly, makes compilation run forever.", "quantifier": "every definition environment", "why_tests_cant": "environment graphs unbounded", "anchors": ["core/policyengine/policy/falco/compiler.go: visitTerm, reduceList"]}
{"id": "C24", "title": "Falco list expansion", "statement": "A list reference expands to the concatenation, in order and with duplicates, of its items with nested list names recursively replaced and bounding quotes stripped; names that are not lists stay literal.", "quantifier": "every acyclic list environment", "why_tests_cant": "unbounded nesting", "anchors": ["core/policyengine/policy/falco/compiler.go: reduceList, extractList, extractListFromItems, extractListFromAtoms"]}
{"id": "C25", "title": "Falco 'in' and 'pmatch'", "statement": "field in (a, b, ...) is true exactly when some comma-separated component of the field's value equals some component of some listed (or list-expanded) item; pmatch is the same with substring containment.", "quantifier": "every field, item list, record", "why_tests_cant": "unbounded", "anchors": ["core/policyengine/policy/falco/compiler.go: visitTerm", "core/policyengine/source/flatrecord/operations.go: FoldAny"]}
{"id": "C26", "title": "Falco rule attributes", "statement": "enabled defaults to true and is false only for an explicit false value; priority text maps case-insensitively to its level with default low; every rule and filter of every file appears once, in file order; a later macro or list with the same name replaces the earlier.", "quantifier": "every policy file sequence", "why_tests_cant": "unbounded", "anchors": ["core/policyengine/policy/falco/compiler.go: getPriority, getEnabledFlag, ExitPrule, ExitPfilter, ExitPmacro, ExitPlist, Compile"]}
{"id": "C27", "title": "Sigma condition semantics", "statement": "A compiled Sigma condition evaluates to its Boolean meaning: and/or/not, a search identifier means its search (false if undefined), '1 of them'/'all of them' the disjunction/conjunction over all searches, '1 of pattern'/'all of pattern' over the matching ones.", "quantifier": "every condition tree, every set of searches, every record", "why_tests_cant": "unbounded", "anchors": ["core/policyengine/policy/sigma/compiler.go: visitSearchExpression"]}
{"id": "C28", "title": "Sigma event matchers and modifiers", "statement": "A field matcher is true when some listed value matches (all of them with the 'all' modifier), each value compared with the comparator named by the modifiers (case-insensitive equality by default) after value transformation.", "quantifier": "every matcher list, values and modifiers", "why_tests_cant": "unbounded", "anchors": ["core/policyengine/policy/sigma/compiler.go: visitSearch, visitTerm", "core/policyengine/policy/sigma/modifiers.go"]}
{"id": "C29", "title": "Sigma value transformers", "statement": "The base64 transformer yields standard padded base64 from which the original value is recoverable; windash yields the value with every dash replaced by a slash, so that with the windash modifier a value matches in both spellings; the transformer flag set behaves as a set (Has after Set, not after Clear, others unaffected).", "quantifier": "every value and flag set", "why_tests_cant": "values unbounded", "anchors": ["core/policyengine/policy/sigma/transformer.go: Transform, Set, Clear, Has", "core/policyengine/policy/sigma/modifiers.go: TransformersMap"]}
{"id": "C30", "title": "Sigma rule attributes", "statement": "Each parsed rule yields one engine rule per condition, in order, enabled, named by its ID, with its level mapped to the five priorities (informational by default); a rule file that does not parse contributes nothing and does not affect the others.", "quantifier": "every rule file sequence", "why_tests_cant": "unbounded", "anchors": ["core/policyengine/policy/sigma/compiler.go: compile, getPriority"]}
{"id": "C31", "title": "OTel attribute comparison", "statement": "For OpenTelemetry logs an attribute comparison is decided by the first attribute with that key, in the order resource, then per scope its own attributes and those of its log records; absent attributes compare false.", "quantifier": "every resource log", "why_tests_cant": "unbounded structures", "anchors": ["core/policyengine/source/otel/operations.go: getAllAttributes, compareHelper, Exists, FoldAny, FoldAll", "core/policyengine/source/otel/operator.go"]}
{"id": "C32", "title": "OTel enrichment only adds", "statement": "Attaching rules to an OTel record that arrives without a scope named sf-processor appends the rule names, in order, to sf.processor.rules of a single scope of that name (created at the end if absent); for every record, all other scopes, attributes and logs are left unchanged.", "quantifier": "every record, every sequence of rules", "why_tests_cant": "unbounded histories", "anchors": ["core/policyengine/source/otel/contextualizer.go: AddRules, getOrCreateProcessorScopeAttributes, getOrCreateAttribute"]}
{"id": "C33", "title": "Duplicate suppression window", "statement": "With the flattener's filter enabled, a record is suppressed exactly when a record with the same semantic key was emitted less than the configured age ago; in particular the first occurrence and the first occurrence after each expiry are always emitted.", "quantifier": "every sequence of records with non-decreasing arrival times", "why_tests_cant": "histories unbounded", "anchors": ["core/flattener/filter.go: TestAndAdd, Add, evictAgedEntries", "core/flattener/flattener.go: out"]}
{"id": "C34", "title": "Duplicate filter memory is bounded by the window", "statement": "After each operation the filter stores exactly one entry per distinct key emitted within the window; the counter equals the number of occurrences since that emission.", "quantifier": "every operation history", "why_tests_cant": "histories unbounded", "anchors": ["core/flattener/filter.go: Add, Count, Contains, evictAgedEntries"]}
{"id": "C35", "title": "Semantic key ignores time and depends only on the flow identity", "statement": "Two records with the same type, process, container and object attributes get the same duplicate key whatever their timestamps and byte counts.", "quantifier": "every pair of records", "why_tests_cant": "unbounded", "anchors": ["core/flattener/filter.go: semanticHash"]}
{"id": "C36", "title": "Entity tables behave as latest-write maps since the last header", "statement": "After any sequence of table operations, looking up a container, pod or file returns the entity most recently stored under that id since the last reset, and none if there is none; entities with different ids never interfere.", "quantifier": "every operation history", "why_tests_cant": "histories unbounded", "anchors": ["core/cache/tables.go: SetCont, GetCont, SetPod, GetPod, SetFile, GetFile, Reset"]}
{"id": "C37", "title": "Process lookup prefers modified over created over re-up", "statement": "Looking up a process returns the latest MODIFIED version stored since the last reset if any, else the latest CREATED, else the latest REUP, else none.", "quantifier": "every operation history", "why_tests_cant": "histories unbounded", "anchors": ["core/cache/tables.go: SetProc, GetProc"]}
{"id": "C38", "title": "Process provenance", "statement": "The ancestor chain of a process starts with it and follows parent ids through the table until a parent is unknown or absent; it terminates whenever the parent relation is acyclic; once computed it is returned unchanged until the next header.", "quantifier": "every table content", "why_tests_cant": "unbounded chains", "anchors": ["core/cache/tables.go: GetPtree, getProcProv"]}
{"id": "C39", "title": "Reader forwards each event once, in order, with its context", "statement": "Every process event, file event, file flow, network flow and Kubernetes event of the input stream produces exactly one handler call, in stream order, with the container, pod, process and file entities most recently defined before it since the last header; entity and header records produce none.", "quantifier": "every record stream", "why_tests_cant": "streams unbounded", "anchors": ["core/processor/reader.go: Process", "core/processor/processor.go: Process"]}
{"id": "C40", "title": "Flattener delivery", "statement": "Each handled event yields at most one flat record, delivered to each output channel in the same order; without the filter exactly one; Kubernetes events are never suppressed.", "quantifier": "every event history and channel list", "why_tests_cant": "histories unbounded", "anchors": ["core/flattener/flattener.go: out, HandleProcEvt, HandleK8sEvt"]}
{"id": "C41", "title": "Flattening preserves attributes", "statement": "Reading an attribute of the flat record produced from an event returns the value in the event, its process, file, container or pod, and zero for absent entities.", "quantifier": "every event and context", "why_tests_cant": "unbounded", "anchors": ["core/flattener/flattener.go: fillEntities, HandleNetFlow, HandleFileFlow, HandleFileEvt, HandleProcEvt"]}
{"id": "C42", "title": "Exporter batching loses and reorders nothing", "statement": "The batches passed to the encoder, concatenated, are exactly the received records in order once the input closes; no batch is empty or exceeds the configured buffer size; at any time the unflushed remainder is smaller than the buffer size.", "quantifier": "every arrival/tick/close sequence, every buffer size, every clock", "why_tests_cant": "schedules unbounded", "anchors": ["core/exporter/exporter.go: Process, process"]}
{"id": "C43", "title": "Export failure isolation", "statement": "A batch whose encoding or transport fails affects no other batch: every other batch is exported exactly as if the failing one had not failed.", "quantifier": "every pattern of failures", "why_tests_cant": "failure patterns unbounded", "anchors": ["core/exporter/exporter.go: Process, process", "core/exporter/encoders/json.go: Encode"]}
{"id": "C44", "title": "File transport framing", "statement": "The file transport writes each exported datum followed by one newline, so the file is a line-per-record log from which the sequence of data can be recovered whenever data contain no newline.", "quantifier": "every sequence of data", "why_tests_cant": "unbounded", "anchors": ["core/exporter/transports/file.go: Export", "core/exporter/transports/terminal.go: Export"]}
{"id": "C45", "title": "JSON string escaping round-trips", "statement": "Every string the JSON encoder writes is a valid JSON string body which a JSON decoder reads back as the original (with invalid UTF-8 bytes replaced by U+FFFD), and contains no raw control character, quote or newline.", "quantifier": "every byte string", "why_tests_cant": "strings unbounded", "anchors": ["core/exporter/encoders/json.go: stringNoQuotes, String"]}
{"id": "C46", "title": "JSON record framing", "statement": "The JSON object written for a record is well formed and contains exactly the enabled fields, grouped by section, each with its value: for every set of present sections and every record.", "quantifier": "every record and section-presence combination", "why_tests_cant": "combinations unbounded", "anchors": ["core/exporter/encoders/json.go: encode, writeSectionBegin, writeAttribute"]}
{"id": "C47", "title": "ECS alert annotation", "statement": "The exported ECS event of a matched record carries the names of all matched rules in order and a severity equal to the maximum of Low and the matched priorities (hence the maximum of the matched priorities unless all are informational); the event of an unmatched record carries neither; the document's tags are all tags of the context followed by those of the rules.", "quantifier": "every rule list", "why_tests_cant": "unbounded", "anchors": ["core/exporter/encoders/ecs.go: encode"]}
{"id": "C48", "title": "ECS event classification", "statement": "Every file, process and network record is assigned exactly one event category, type and action determined by its operation flags; the classification is total.", "quantifier": "every flag set", "why_tests_cant": "all flag words", "anchors": ["core/exporter/encoders/ecs.go: encodeFileFlow, encodeFileEvent, encodeProcessEvent, encodeNetworkFlow"]}
{"id": "C49", "title": "ECS event times", "statement": "event.start is the record's timestamp; event.end is the recorded end of the flow, or the start if none is recorded (duration 0); event.duration is end minus start.", "quantifier": "every pair of timestamps", "why_tests_cant": "unbounded", "anchors": ["core/exporter/encoders/ecs.go: encodeEvent"]}
{"id": "C50", "title": "Configuration parsing is total with documented defaults", "statement": "Every configuration map yields a configuration whose enumerated settings are valid; absent keys give the defaults; a present key is honoured independently of the others.", "quantifier": "every configuration map", "why_tests_cant": "maps unbounded", "anchors": ["core/policyengine/engine/config.go: CreateConfig", "core/exporter/commons/config.go: CreateConfig", "core/flattener/config.go: CreateConfig"]}
{"id": "C51", "title": "Environment overrides", "statement": "An environment variable <PROC>_<ATTR> sets attribute attr (underscores as dots, lower case) of every pipeline stage whose processor is proc, and changes no other stage or attribute.", "quantifier": "every environment and pipeline configuration", "why_tests_cant": "unbounded", "anchors": ["driver/pipeline/plugincache.go: updateConfigFromEnv, getEnv"]}
{"id": "C52", "title": "Pipeline wiring", "statement": "Two stages that name the same channel are connected by the same channel, different names by different channels; the root channel is the input channel of the first stage.", "quantifier": "every pipeline configuration", "why_tests_cant": "unbounded", "anchors": ["driver/pipeline/plugincache.go: GetChan", "driver/pipeline/pipeline.go: Load, GetRootChannel"]}
{"id": "C53", "title": "Pipeline drains on shutdown", "statement": "When the driver closes the root channel of a linear pipeline, under every schedule every record already sent reaches the last stage (unless dropped by a stage) before the pipeline's Wait returns, and Wait does return.", "quantifier": "every pipeline length, every input, every schedule", "why_tests_cant": "schedules unbounded", "anchors": ["driver/pipeline/pipeline.go: process, Wait", "core/policyengine/policyengine.go: Cleanup", "core/exporter/exporter.go: Process"]}
{"id": "C54", "title": "File driver delivers records in file order", "statement": "The file driver sends to the root channel exactly the records of the files in order up to the first stop request, then closes the channel once.", "quantifier": "every file list and stop point", "why_tests_cant": "unbounded", "anchors": ["driver/sysflow/filedriver.go: Run", "driver/otel/filedriver.go: Run"]}
{"id": "C55", "title": "Plugin registries", "statement": "Looking up a driver, processor, handler or channel factory by name returns the most recently registered factory under exactly that name, and an error if there is none.", "quantifier": "every registration history", "why_tests_cant": "histories unbounded", "anchors": ["driver/pipeline/plugincache.go: AddDriver, AddProcessor, AddChannel, GetDriver, GetProcessor", "core/processor/handlercache.go: GetHandler"]}
{"id": "C56", "title": "The latest policies are eventually adopted", "statement": "After the policy directory stops changing, the set compiled from its final contents is eventually adopted by the engine, provided records keep arriving.", "quantifier": "every history of directory changes, compiles, adoptions and intervals", "why_tests_cant": "depends on the whole history of queued policy sets and on which of them are discarded when the queue is full", "anchors": ["core/policyengine/monitor/localpolicymonitor.go: CheckForPolicyUpdate", "core/policyengine/policyengine.go: Process"]}
{"id": "C57", "title": "Falco field names are aliases", "statement": "On every record each supported Falco field name (evt.type, proc.name, fd.sip, container.id, ...) reads exactly the same as the SysFlow field it stands for, as text, as integer and for existence, so a condition means the same in either vocabulary.", "quantifier": "every Falco field name and every record", "why_tests_cant": "must hold for every record; a test compares a few records only", "anchors": ["core/policyengine/source/flatrecord/fieldmapper.go: getNonExportedMappers", "core/policyengine/source/flatrecord/constants.go"]}
{"id": "C58", "title": "Exported values are the values rules see", "statement": "For every exported single-valued field, the value in the JSON document of a record is the value the rule language uses for the field of the same name (text, number or truth value), and list-valued fields are exported as the list of the items that rules see joined by commas. Known exceptions: sf.proc.tty/entry when they hold neither 0 nor 1, and sf.file.newpath of symbolic links.", "quantifier": "every record and every exported field", "why_tests_cant": "records and field values are unbounded", "anchors": ["core/exporter/encoders/json.go: MapJSON", "core/policyengine/source/flatrecord/fieldmapper.go: MapStr, Mappers"]}
{"id": "C59", "title": "One exported record is one line", "statement": "The JSON text of a record never contains a newline or any other control character, whatever strings the record, its matched rules or its tags hold, so a log file of exported records splits into exactly the exported texts.", "quantifier": "every sequence of records, rules, tags", "why_tests_cant": "strings unbounded; holds even when the text is malformed JSON", "anchors": ["core/exporter/encoders/json.go: encode, stringNoQuotes", "core/exporter/transports/file.go: Export"]}
{"id": "C60", "title": "ECS document identifiers", "statement": "The identifier of an ECS document is a digest of node, container and the identifying attributes of the record and of nothing else: equal attributes give equal identifiers, and records of one kind, node and container that differ in any identifying attribute have different digest inputs.", "quantifier": "all pairs of records", "why_tests_cant": "all pairs of attribute values", "anchors": ["core/exporter/encoders/ecs.go: encodeID"]}
{"id": "C61", "title": "ECS documents show the record", "statement": "The ECS document of every record shows exactly the process, parent, user, container, pod, host, file, network and event entries given by the record's attributes, parts that do not apply are absent, and encoding fails only for records with a pod without lists or matched records of unknown kind.", "quantifier": "every record and context", "why_tests_cant": "all combinations of kinds and attributes", "anchors": ["core/exporter/encoders/ecs.go: encode, encodeProcess, encodeUser, encodeContainer, encodePod, encodeFile, encodeNetworkFlow"]}
{"id": "C62", "title": "Global configuration items", "statement": "Every pipeline stage with a processor is configured with the build's version, JSON schema version, ECS version and build number and with the cluster identifier of the CLUSTER_ID environment variable; no other attribute or stage is changed.", "quantifier": "every build, environment and pipeline configuration", "why_tests_cant": "unbounded", "anchors": ["driver/manifest/manifest.go.in", "driver/pipeline/config.go: setManifestInfo, addGlobalConfigItem"]}
{"id": "C63", "title": "Pipeline loading stops at the first unusable stage", "statement": "A stage is loaded only if it names a processor that is found and initialises and has an input attribute and resolvable channels; the first stage that is not usable ends loading.", "quantifier": "every configuration and registry", "why_tests_cant": "unbounded", "anchors": ["driver/pipeline/pipeline.go: Load"]}
{"id": "C64", "title": "Driver selection", "statement": "A driver named on the command line is the only one used; otherwise all drivers of the configuration are used in order; each is initialised with the first configuration entry of its name.", "quantifier": "every flag, configuration and registry", "why_tests_cant": "unbounded", "anchors": ["driver/pipeline/pipeline.go: Load, Init", "driver/main.go"]}
{"id": "C65", "title": "Streaming driver delivers messages in order", "statement": "The streaming driver sends one record per message in order of arrival, up to a stop request, after which it sends nothing, closes the channel exactly once, and waits for the pipeline.", "quantifier": "every sequence of connections, messages and read errors and every stop point", "why_tests_cant": "histories unbounded", "anchors": ["driver/sysflow/streamingdriver.go: Run"]}
{"id": "C66", "title": "Kafka driver delivers messages in order", "statement": "The Kafka driver sends the records of the consumed messages in order up to the first unreadable or unparsable one and then closes the channel exactly once.", "quantifier": "every message history", "why_tests_cant": "histories unbounded", "anchors": ["driver/otel/kafkadriver.go: Run"]}
{"id": "C67", "title": "A Falco condition has one reading", "statement": "Every condition text that the rule language accepts has exactly one syntax tree: `not` applies to the term after it, `and` binds tighter than `or`, parentheses override; and a condition in a policy file ends at the first token that cannot continue it. Texts outside the grammar are rejected.", "quantifier": "every sequence of tokens", "why_tests_cant": "conditions nest to any depth; ambiguity is about all pairs of readings", "anchors": ["core/policyengine/policy/falco/lang/Sfpl.g4: expression, or_expression, and_expression, term, items, atom", "core/policyengine/policy/falco/lang/parser/sfpl_parser.go"]}
{"id": "C68", "title": "Falco texts are divided into words faithfully", "statement": "The tokens of a policy text spell that text; each token is the longest any rule matches, the earlier rule winning ties; blanks and comments between words never change what is parsed; quoted texts, paths, identifiers, reserved words and severities standing between blanks are each one token of their class.", "quantifier": "every policy text", "why_tests_cant": "texts are unbounded; longest match compares all rules on all prefixes", "anchors": ["core/policyengine/policy/falco/lang/Sfpl.g4", "core/policyengine/policy/falco/lang/parser/sfpl_lexer.go", "core/policyengine/policy/falco/compiler.go: compile"]}
{"id": "C69", "title": "A Falco policy file is read as its declarations", "statement": "A policy text is accepted exactly when it is a sequence of one or more rule, filter, macro, list and required-version declarations of the grammar, and is then read as that sequence in one way only; a rule's name and description are the file's characters between the keywords, blanks and comments included; where blanks and comments are not part of such texts, they do not matter; any other text is rejected as a whole. A declaration that follows a rule's output text is part of that output text.", "quantifier": "every policy text and every sequence of declarations", "why_tests_cant": "texts and declaration lists are unbounded, and acceptance compares all readings", "anchors": ["core/policyengine/policy/falco/lang/Sfpl.g4: policy, defs, srule, pfilter, pmacro, plist, text", "core/policyengine/policy/falco/compiler.go: compile, ExitPrule, ExitPfilter, ExitPmacro, ExitPlist, getOffChannelText"]}
{"id": "C70", "title": "Policy files to alerts", "statement": "For any policy files whose texts are declarations of the rule language with no definition that refers back to itself, loading succeeds and the engine attaches to each record exactly the declared rules, in order of declaration, that are enabled, whose prefilter is empty or lists the record's type, and whose condition, read with the definitions in force at the rule, is true of the record; a record for which an enabled filter is true gets none and is not passed on; in alert mode a record is passed on, once, exactly when a rule was attached.", "quantifier": "every sequence of policy texts, every record, every action set that keeps telemetry and rules, both modes", "why_tests_cant": "policy texts, definition orders and records are unbounded; the claim joins lexer, parser, compiler and engine", "anchors": ["core/policyengine/policy/falco/compiler.go: Compile", "core/policyengine/engine/interpreter.go: worker, evalFilters", "core/policyengine/policy/falco/lang/Sfpl.g4", "core/policyengine/source/flatrecord/operations.go"]}
{"id": "C71", "title": "From the stream to the fields", "statement": "Reading a stream of SysFlow records and flattening it without duplicate suppression gives, on every output channel, one record per process event, file event, file flow, network flow and Kubernetes event, in order; and each of the 87 exported fields of that record, read by name, is the value given by the event itself or by the process (latest modified, else created, else re-up version), its container, pod, files, ancestor chain and the header known from the stream when the event arrives, zero or empty where there is none.", "quantifier": "every stream the reader gets through, every number of output channels, every event of the stream, every exported field", "why_tests_cant": "the value of a field depends on the whole history of definitions since the last header", "anchors": ["core/processor/reader.go:Process", "core/flattener/flattener.go:HandleProcEvt", "core/flattener/flattener.go:fillEntities", "core/policyengine/source/flatrecord/fieldmapper.go:getExportedMappers", "core/policyengine/source/flatrecord/record.go:GetCachedValue"]}
{"id": "C72", "title": "From the stream and the policy files to alerts", "statement": "For any stream of SysFlow records and any Falco policy texts without circular definitions, the record of each event gets exactly the declared rules, in order of declaration, that the policy text says of the field values which the stream gives that event; in alert mode it is passed on once if some rule is attached and otherwise not at all. In particular what the engine decides about an event depends only on the values of its exported fields.", "quantifier": "all streams, all policy texts of the rule language, all events, all actions that leave telemetry and rules alone", "why_tests_cant": "histories and policy texts are unbounded; a test covers single combinations", "anchors": ["core/processor/reader.go", "core/flattener/flattener.go", "core/policyengine/policy/falco/compiler.go", "core/policyengine/engine/interpreter.go", "core/policyengine/source/flatrecord/operations.go"]}
{"id": "C73", "title": "Exporter settings and credentials come from the right place", "statement": "For every configuration map, every content of the secrets vault and every order in which the Kafka settings are walked: the exporter's configuration is accepted exactly when its numbers and duration are well formed, the vault opens if it is switched on, every Elastic credential that must come from the vault is there, and a Kafka section with brokers and topic is present. Each setting of an accepted configuration is determined by its own key with the documented default; a credential is the configured text, else the vault's entry (only if the vault is switched on and Elastic is the transport; base64-decoded exactly when asked), else empty; configured Kafka settings override the defaults and nothing else is added. With the vault off it is never consulted.", "quantifier": "all configuration maps, vault contents, duration parsers and map iteration orders", "why_tests_cant": "The interplay of optional keys, vault state and transport has unboundedly many combinations, and Go's map order is random per run; a test sees one of each.", "anchors": ["core/exporter/commons/config.go:CreateConfig", "core/exporter/commons/elasticconfig.go:CreateElasticConfig", "core/exporter/commons/kafkaconfig.go:CreateKafkaConfig", "core/exporter/commons/syslogconfig.go:CreateSyslogConfig", "core/exporter/commons/fileconfig.go:CreateFileConfig"]}
{"id": "C74", "title": "OTel Kafka driver subscribes to exactly the configured topics", "statement": "For every configuration map: the OTel Kafka driver's configuration is an error exactly when no brokers or no array of topics is given, panics exactly when brokers are given and some topic is not text, and otherwise holds exactly the listed topics in order, JSON payloads only for the encoding `json`, and the configured consumer settings over the defaults, whatever the order in which the settings are walked.", "quantifier": "all configuration maps and map iteration orders", "why_tests_cant": "Ranges over all maps, topic lists and iteration orders.", "anchors": ["driver/otel/config.go:CreateKafkaConfig", "driver/otel/kafkadriver.go:Init"]}
{"id": "C75", "title": "Elastic transport: complete bulks, no duplicate documents", "statement": "For every sequence of exported batches and every pattern of library failures: an Export that succeeds has created one bulk, added exactly the documents of its records in order under their ids, and closed it; an Export given a value that is not an ECS record, or one that does not render, fails; a failing Export has added at most a prefix of its documents to a bulk that is not closed. Over a whole run with a library that does not fail, the bulks hold the documents of all received records in order, none missing. Since documents are created, not overwritten, the index never holds an id twice, never loses or changes a stored document, holds every exported id, and exporting the same records again changes nothing, in whatever order the documents of a bulk arrive.", "quantifier": "all batches, library failure patterns, receive schedules, arrival orders and index contents", "why_tests_cant": "Ranges over all failure points, schedules and arrival orders.", "anchors": ["core/exporter/transports/elastic.go:Export", "core/exporter/exporter.go:Process"]}
{"id": "C76", "title": "Whole program: the log holds exactly one line per event the policies let pass", "statement": "Take the usual configuration (SysFlow reader and flattener, policy engine with Falco policy files in alert or enrich mode, JSON encoder, file transport, duplicate filter off). For every stream the driver delivers, every set of policy texts that parses and compiles without cyclic definitions, every number of workers, every interleaving of the goroutines, every moment at which the monitor replaces the policies and every firing of the exporter's timer: once the driver has closed the root channel Wait returns, and then the log consists of complete lines, one for each event that the policies in force let pass (not filtered; and in alert mode matched by a rule) and no other, in event order with one worker; each line is the JSON text of a record showing the event's field values as known from the stream before it, its ancestors, and exactly the rules whose condition holds of those values; it reads back as that record's document when the process is known and the pod has at most one address and service of each kind. With fixed policies the lines are a function of the stream (up to order with several workers).", "quantifier": "all streams, policy texts, schedules, reload moments, timer firings, worker counts", "why_tests_cant": "Ranges over all streams, policies and interleavings of four kinds of goroutines.", "anchors": ["driver/pipeline/pipeline.go:Load", "driver/pipeline/pipeline.go:Wait", "core/processor/reader.go:Process", "core/flattener/flattener.go:HandleProcEvt", "core/policyengine/policyengine.go:Process", "core/exporter/exporter.go:Process", "core/exporter/encoders/json.go:Encode"]}
{"id": "C77", "title": "Exit status of the program and which drivers it starts", "statement": "The program's exit status is 0 or 1. It is 0 exactly if only the version was asked for; or the CPU and trace profiles could be started, the pipeline configuration loads, and either only a test of the configuration was asked for, or a path argument is given, every driver can be initialised, the last driver (which runs in the foreground) returns without an error, and the memory profile can be written. With -version, -test or no argument no driver is initialised or started. Otherwise drivers are initialised and started one after the other up to the first that cannot be initialised, the last of all in the foreground and the others in the background; a failure of a background driver never shows in the exit status.", "quantifier": "all command lines, configurations, numbers of drivers and outcomes of initialising and running them", "why_tests_cant": "Ranges over every combination of flags, profile outcomes and any number of drivers.", "anchors": ["driver/main.go:run", "driver/main.go:main", "driver/pipeline/pipeline.go:Init"]}
{"id": "C78", "title": "A run on files or a socket returns with a complete log", "statement": "The program in the configuration of C76, reading a list of SysFlow files that can all be opened: under every schedule that does not ignore it forever it returns, without an error and without getting stuck, however small the channels; when it has returned, the log is complete (in the sense of C76) for a prefix of the records in the files, each file read up to its first unreadable datum, and for all of them if no stop was requested. The same holds for the socket driver and the connections it accepts.", "quantifier": "all files, connections, stop requests, schedules, channel capacities, worker counts, policies", "why_tests_cant": "Liveness and completeness under every interleaving of the driver with the stages.", "anchors": ["driver/sysflow/filedriver.go:Run", "driver/sysflow/streamingdriver.go:Run", "driver/pipeline/pipeline.go:Init", "driver/pipeline/pipeline.go:Wait"]}
{"id": "C79", "title": "The log at every moment of a run", "statement": "If the program of C76 is killed, crashes or exits with an error at any moment, also in the middle of a write, the log file holds the beginning of a log that is complete for the records the driver has sent so far: its complete lines are each the line of one event that a policy set in force wanted logged, in the order of the complete log, and no two are for the same event. Nothing once written is changed.", "quantifier": "all crash points, schedules, streams, policies, drivers (also failing ones)", "why_tests_cant": "Ranges over every crash point of every interleaving.", "anchors": ["core/exporter/exporter.go:Process", "core/exporter/transports/file.go:Export", "driver/sysflow/filedriver.go:Run", "driver/main.go:run"]}
{"id": "C80", "title": "Stop requests", "statement": "The program's running flag is set exactly if some driver has been started and no SIGINT/SIGTERM has stopped it for good; only the first signal the handler receives counts, it has an effect only if the pipeline has been created, and it is undone if a driver is started afterwards. Once the flag is off and no further driver is started it stays off, for every sequence of readings by a driver. After a stop, the socket driver sends at most one more record and makes at most four more moves; if it is not waiting for a connection or for data that never comes, it ends after these. A socket driver waiting for a connection that never comes does not end.", "quantifier": "all histories of signals, pipeline creation and driver starts; all schedules of the socket driver, its peer and the stop request", "why_tests_cant": "Ranges over every timing of the signal relative to start-up and to every blocking call of the driver.", "anchors": ["driver/main.go:initSigTerm", "driver/pipeline/pipeline.go:Shutdown", "driver/pipeline/pipeline.go:Init", "driver/sysflow/streamingdriver.go:Run", "driver/sysflow/streamingdriver.go:Cleanup"]}
{"id": "C81", "title": "ECS documents as text", "statement": "For every record the ECS encoder accepts, the text written for its document contains no control character (so it is a single line whatever texts the record holds), is well-formed JSON, and reading it back gives exactly the document: one member for each of its non-empty parts under its ECS name, with exactly that part's entries, nothing twice, left out or added; in particular the members event, host and process show the record's category, type, action, times, result, severity, host and process.", "quantifier": "all records, configurations and texts inside records (any characters)", "why_tests_cant": "Ranges over every text a record can hold, including quotes, control characters and characters beyond the BMP, and over every combination of present and absent parts.", "anchors": ["core/exporter/encoders/ecs.go:ECSRecord", "core/exporter/encoders/ecs.go:Encode", "core/exporter/transports/file.go:Export", "core/exporter/transports/terminal.go:Export"]}
{"id": "C82", "title": "The whole program with ECS output, to a file or to Elastic", "statement": "For every stream the driver delivers, every schedule of reader, policy engine workers, policy reloads, exporter and timer: when Wait returns, the ECS log file has exactly one line for each event that the policies in force let pass, and nothing else; the line is well-formed JSON and is the ECS document of a record with the event's field values, ancestors and rules. With the Elastic exporter, the requests made are complete bulks, none empty or larger than the buffer, holding exactly those documents; and, whatever the order in which the bulk's documents are stored, afterwards no id is stored twice, nothing stored before is lost or changed, everything new is the document of an event that is to be logged, and the id of each such event is stored.", "quantifier": "all streams, policy texts, numbers of workers, schedules, policy reloads, timer firings, prior index contents and arrival orders", "why_tests_cant": "Ranges over every interleaving of the goroutines, every stream and policy set, and every arrival order of documents; a test runs a few.", "anchors": ["core/exporter/encoders/ecs.go:Encode", "core/exporter/transports/file.go:Export", "core/exporter/transports/elastic.go:Export", "core/exporter/exporter.go:Process", "core/policyengine/policyengine.go:Process", "driver/pipeline/pipeline.go:Load"]}
{"id": "C83", "title": "The whole program with the duplicate filter", "statement": "With the duplicate filter on, when Wait returns the log has exactly one line for each surviving event that the policies in force let pass. Every event survives except those for which an event with the same identity (program, arguments, user, group, operations, terminal and, by kind, addresses, port and protocol, or path; compared through the hash) survived less than the configured age before; Kubernetes events always survive; the survivors are uniquely determined by the stream and the times at which events are handled.", "quantifier": "all streams, clocks that do not run backwards, filter ages, policies, schedules", "why_tests_cant": "Suppression depends on the whole history of surviving events and their times; every history, age and interleaving must be covered.", "anchors": ["core/flattener/filter.go:TestAndAdd", "core/flattener/filter.go:semanticHash", "core/flattener/flattener.go:out", "core/exporter/exporter.go:Process", "core/policyengine/policyengine.go:Process"]}
{"id": "C84", "title": "OpenTelemetry: from policy files to alerts", "statement": "Policy files whose texts are declarations of the rule language, in which no definition refers back to itself and no rule reads the attributes the processor writes, compile; and the engine then notes in every OpenTelemetry record (one without absent values, empty arrays or an earlier processor scope) exactly the declared rules, in order of declaration, that are enabled and whose condition is true of the record under the definitions in force: it adds one scope listing their names and tags, and changes nothing else. If an enabled filter is true of the record it stays as it is and is not passed on; in alert mode it is passed on, once, exactly when some rule is noted. No operation on such a record panics, however often rules are attached.", "quantifier": "all policy texts of the language, all such records, all actions that leave records alone, both modes", "why_tests_cant": "Every policy text and every record, of any size and nesting; a test fixes both.", "anchors": ["core/policyengine/policyengine_otel.go", "core/policyengine/policy/falco/compiler.go", "core/policyengine/engine/interpreter.go:ProcessAsync", "core/policyengine/source/otel/operations.go", "core/policyengine/source/otel/contextualizer.go", "core/policyengine/source/otel/prefilter.go"]}
{"id": "C85", "title": "OpenTelemetry: the whole program", "statement": "For every stream of records, every schedule of policy engine workers, policy reloads, exporter and timer: when Wait returns, the messages handed to the Kafka producer, or the lines of the log file, are exactly the encodings of the records the policies in force let pass, with the rules that apply noted in them and nothing else changed, one for each record that can be encoded; in order if there is one worker. At every moment the messages are the first of a sequence complete for the records delivered so far. With the Kafka driver, Run returns only with an error, after all records read before; with the file driver on one file it returns without error and the log is complete for the file.", "quantifier": "all streams, policy texts, numbers of workers, schedules, policy reloads, timer firings, moments", "why_tests_cant": "Ranges over every interleaving of the goroutines and every stream and policy set.", "anchors": ["core/exporter/encoders/otel.go:Encode", "core/exporter/transports/kafka.go:Export", "core/exporter/transports/file.go:Export", "core/exporter/exporter.go:Process", "core/policyengine/policyengine.go:Process", "driver/otel/kafkadriver.go:Run", "driver/otel/filedriver.go:Run", "driver/pipeline/pipeline.go:Load"]}
{"id": "C86", "title": "Enrich mode without policies: the whole program passes everything on", "statement": "In enrich mode with no policy file configured the policy engine has no interpreter. For every stream, every schedule of the components and the export timer: when Wait returns, the log file has exactly one line for each event of the stream, in the order of the events, showing the event and no rules, as JSON or as an ECS document; the contents of the file do not depend on the schedule. For OpenTelemetry records the messages handed to the Kafka producer are the encodings of the records that can be encoded, unchanged and in order, whatever holes the records have.", "quantifier": "all streams and records, all schedules, all buffer sizes and timer firings", "why_tests_cant": "Ranges over every interleaving of the goroutines and every stream.", "anchors": ["core/policyengine/policyengine.go:Process", "core/policyengine/policyengine_flatrecord.go", "core/policyengine/policyengine_otel.go", "core/exporter/exporter.go:Process", "driver/pipeline/pipeline.go:Load"]}
{"id": "C87", "title": "Sigma search-name patterns", "statement": "A Sigma condition `1 of pattern` or `all of pattern` ranges over the searches whose name the pattern denotes: stars stand for any text without slash, question marks for one character, bracketed classes (with ranges, negation, escapes) for one character in or not in the class, a backslash makes the next character literal, everything else stands for itself, and the whole name must be covered. For names without slash the matcher says yes exactly for these names; an ill-formed pattern denotes nothing. For names with a slash it never says yes wrongly, but may miss a name.", "quantifier": "all patterns and names of any length", "why_tests_cant": "Ranges over all patterns and names; the matcher commits to the leftmost occurrence of each chunk and never backtracks, which only an argument over all continuations can justify.", "anchors": ["core/policyengine/policy/sigma/compiler.go:visitSearchExpression"]}
{"id": "C88", "title": "From Sigma rule files to alerts", "statement": "If every rule file can be read, the configuration is absent or well formed, and no rule uses the modifiers base64Offset or cidr or a field mapped to nothing, then the Sigma compiler neither fails nor panics, and the engine attaches to every record exactly the id, description, level and tags of the rules of which a condition is true of the record, once per such condition, in order of files and conditions; in alert mode the record is passed on, once, exactly when some condition is true, in enrich mode always. Files that cannot be parsed as rules say nothing.", "quantifier": "all rule files, configurations, records, modes and harmless actions", "why_tests_cant": "Ranges over every rule and every record.", "anchors": ["core/policyengine/policy/sigma/compiler.go:visitSearchExpression", "core/policyengine/policy/sigma/compiler.go:Compile", "core/policyengine/engine/interpreter.go:worker"]}
{"id": "C89", "title": "The whole program with Sigma policies", "statement": "With Sigma policies, for every stream, every schedule of reader, policy engine workers, policy reloads, exporter and timer: when Wait returns, the stream's events fall into consecutive stretches, one per policy set in force, and the log holds, stretch by stretch, exactly one line for each event of which some condition of the set in force is true (each event, in enrich mode), carrying the rules of exactly those conditions; in order if there is one worker; as JSON or ECS; with the duplicate filter, the same of the events that survive it. Run on a list of SysFlow files without a stop request, this holds for all their records.", "quantifier": "all streams, rule files, schedules, reload moments, timer firings, worker counts", "why_tests_cant": "Ranges over every interleaving of the goroutines, every stream and every policy.", "anchors": ["core/policyengine/policy/sigma/compiler.go", "core/policyengine/policyengine.go:Process", "core/exporter/exporter.go:Process", "driver/pipeline/pipeline.go", "core/processor/reader.go", "core/flattener/flattener.go"]}
{"id": "C90", "title": "Exactly which streams the reader survives", "statement": "The reader returns from a stream unless the stream holds an event that is the first of its (known) process since the last header and whose process, as known at that moment, has circular ancestry (following parents one comes back to the same process); on such an event it recurses without end. Streams in which every process names a parent created before it are never of that kind, whatever else they hold, in whatever order, with whatever missing; on files with such streams the whole program runs to the end and the log is complete for all records.", "quantifier": "all streams of records of any length", "why_tests_cant": "Ranges over every stream; that a recursion never ends cannot be observed by a test.", "anchors": ["core/cache/tables.go:GetPtree", "core/cache/tables.go:getProcProv", "core/processor/reader.go:Process"]}
{"id": "C91", "title": "Channel names in the configuration are the wiring", "statement": "For every pipeline configuration that loads: what a stage sends on the k-th channel of its out attribute is received by exactly the stage whose in attribute has that name. If the names form a tree (every stage reads one channel, no channel has two readers or two writers, writers come before readers, every stage but the first reads what another writes) then, under every schedule, no stage crashes on a channel, and when Wait returns the first stage has received exactly what the driver sent and every other stage exactly what was sent to the channel it names, in order.", "quantifier": "all configurations with any number of stages, fan-out and names; all plugins that keep the stage contract; all schedules", "why_tests_cant": "Ranges over every configuration and every interleaving of the goroutines.", "anchors": ["driver/pipeline/pipeline.go:Load", "driver/pipeline/plugincache.go:GetChan"]}
{"id": "C92", "title": "From the configuration to the running program", "statement": "A configuration of SysFlow reader with flattener, policy engine and exporter, with any channel names and settings, whose policies compile and whose exporter configuration is valid, is loaded; no stage is given a channel of the wrong type; the driver gets the reader's input channel; and what runs is the program of C76 (JSON to a file), C82 (ECS to a file or Elastic) or C86 (no policies), with exactly the configured mode, number of workers, monitor, buffer, duplicate filter and the build's schema version, whatever the pipeline file says about the latter. On files whose records name older parents, every run ends without an error and with a complete log. A configuration whose exporter stage names no Kafka brokers is never loaded, whatever its transport: so none of the configurations shipped for SysFlow input (resources/pipelines, all but pipeline.otel.json) is.", "quantifier": "all such configurations, builds, environments, policies, record files and schedules", "why_tests_cant": "Ranges over every configuration, every stream and every schedule.", "anchors": ["driver/pipeline/pipeline.go:Load", "driver/pipeline/config.go:setManifestInfo", "core/policyengine/policyengine.go:Init", "core/exporter/exporter.go:Init", "core/exporter/commons/config.go:CreateConfig", "core/exporter/commons/kafkaconfig.go:CreateKafkaConfig", "core/flattener/flattener.go:RegisterChannel"]}
{"id": "C93", "title": "From the policy directory to the log", "statement": "With the Falco language, a configuration of reader, policy engine and exporter whose other settings are in order is loaded exactly if the files below the policy path with the suffix .yaml or .yml exist, can all be read, are all well-formed policies and have no cyclic definitions (with the local monitor, one .yaml file must be directly below the path). The program then starts with exactly the policies in these files, in the order of the listing; and every run over files whose records name older parents ends without an error, with a log that is complete for these policies (and those the monitor adopts later); such a run exists.", "quantifier": "all directories, file contents, configurations, record files and schedules", "why_tests_cant": "Ranges over every content of the policy directory, every stream and every schedule.", "anchors": ["core/policyengine/policyengine.go:Init", "core/policyengine/policyengine.go:createPolicyInterpreter", "core/policyengine/monitor/localpolicymonitor.go:NewLocalPolicyMonitor", "core/policyengine/policy/falco/compiler.go:Compile"]}
{"id": "C94", "title": "String literals of the rule language", "statement": "What the lexer takes as a string literal is one by the grammar (a literal, or a text without line ends, between quotes), stands on one line between equal quotes, and if any literal of the grammar starts at a place, one is found there. A literal whose text does not start with a quote or backslash ends at the next quote of its kind; so does any literal, empty ones included, that is the only one with its kind of quotes on the line. But a literal whose text starts with a quote runs on to the first place on the line where that inner and the outer quote stand together: so two empty literals on a line, as in a = \"\" or b = \"\", are one literal with everything between them.", "quantifier": "all policy texts", "why_tests_cant": "Ranges over every text.", "anchors": ["core/policyengine/policy/falco/lang/Sfpl.g4:STRING", "core/policyengine/policy/falco/lang/parser/sfpl_lexer.go:serializedLexerAtn"]}
{"id": "C95", "title": "Health checks", "statement": "Loading a pipeline ends with exactly one health line. It says passed only if every stage that can be tested was tested, in the order of the configuration, and succeeded; it says failed only if a stage's test failed or ten seconds had passed. Testing stops at the first failure. A test that hangs cannot keep the program from starting, and the goroutine that makes the checks is never held up by the result channel. With the plugins of the code base no check can fail: no transport implements one, so an unreachable Elastic or Kafka server goes unnoticed.", "quantifier": "all pipelines, all outcomes and durations of the tests, all schedules", "why_tests_cant": "Ranges over every interleaving of the checks, the timer and the waiting loader.", "anchors": ["driver/pipeline/pipeline.go:test", "core/exporter/exporter.go:Test", "core/exporter/transports/protocol.go:TestableTransportProtocol"]}
{"id": "C96", "title": "Channel types", "statement": "A channel of a loaded pipeline has the type written beside the first mention of its name in the configuration; type words at later mentions have no effect. A stage works exactly if its in attribute names one channel, of the type its processor reads; with one channel of another type it crashes the program; naming none or several, it refuses to work, and then the program never ends: no driver gets past waiting for the stages. Handing out the outputs crashes the program exactly if a stage that writes a type is given a channel of another. A SysFlow driver writes to the channel its out attribute names (without an entry in the configuration: the one the first stage reads) (two words, the name and a type) and crashes the program exactly if that is not a SysFlow channel; but if no stage mentions the name, the driver silently writes to a channel nobody reads, no record is processed and the program never ends. An out attribute that is missing, has more than two words, or names a new channel of an unknown type is reported as an error; one of fewer than two words crashes the program. OpenTelemetry drivers report a wrong type as an error.", "quantifier": "all configurations of the built-in plugins that load, all driver entries, all schedules", "why_tests_cant": "Ranges over every configuration and, for the programs that never end, every schedule.", "anchors": ["driver/pipeline/plugincache.go:GetChan", "driver/pipeline/pipeline.go:Load", "core/processor/reader.go:Process", "core/policyengine/policyengine.go:SetOutChan", "core/flattener/flattener.go:SetOutChan", "core/exporter/exporter.go:Process", "driver/sysflow/filedriver.go:Run", "plugins/processors/example/example.go:Process"]}
{"id": "C97", "title": "ECS documents tell alerts from other events", "statement": "In every ECS document the program emits, the event carries a reason (the names of the rules that matched), a severity (their greatest priority, at least Low) and the rules' tags exactly if rules matched the event, and its kind is `alert` exactly in that case and `event` otherwise.", "quantifier": "all streams, policies, numbers of workers, schedules; all documents written", "why_tests_cant": "What a document says must follow from the verdict for every event under every policy and schedule; a test inspects documents of a few records whose marks it has set itself.", "anchors": ["core/exporter/encoders/ecs.go:encodeEvent", "core/policyengine/source/flatrecord/record.go:SetAlert", "core/policyengine/engine/interpreter.go:worker"]}
{"id": "C98", "title": "From the OpenTelemetry configuration to the messages", "statement": "In the build for OpenTelemetry logs, a pipeline.json of a policy engine and an exporter joined by named channels is loaded whenever the policies compile and the exporter's settings and destination are usable; then the OTel driver is given the policy engine's input channel, no stage starts on a channel of the wrong type, and the messages to Kafka (or the lines of the file) are complete for the records read, with the settings of the configuration. An exporter without format `otel`, or to a destination this build lacks, or without Kafka settings, is never started. The shipped pipeline.otel.json is loaded exactly if its policies compile and its Kafka producer can be created.", "quantifier": "all configurations of that shape, attributes, channel names, environments, build versions, policies, inputs, schedules, numbers of workers", "why_tests_cant": "The statement links every configuration text to every run of the program it starts; a test starts one configuration on one input.", "anchors": ["driver/pipeline/pipeline.go:Load", "core/policyengine/policyengine.go:Init", "core/exporter/exporter.go:Init", "core/exporter/registryotel.go:registerExportProtocols", "driver/otel/kafkadriver.go:Run", "resources/pipelines/pipeline.otel.json"]}
{"id": "C99", "title": "The policy monitor settles on the policies of the directory", "statement": "The monitor goroutine runs beside a directory that changes at any time (also between the listing, the checksums and the reading of the files) and beside a policy engine that takes interpreters at any time. Once the directory stops changing, it comes to rest within a bounded number of steps; then, if it has been told of a change of a policy file, every change was reported, the policy files can be read and no file ever returned to an earlier content, the latest run of the compiler read exactly the files of the directory, and its result, if any, is the last one the policy engine adopts, unless ten earlier ones were waiting. Interpreters are adopted in the order of their compilation, none twice. Files are listed exactly 1000 polls (ten seconds) after the event that opens a round, and compiled at most once per round. The conditions are needed: a change between the first compilation and the start of the watch, a change undone between checksum and compilation, and a chmod that makes a file readable are never noticed; and Cleanup waits for as long as events keep coming.", "quantifier": "all histories of the directory, all interleavings of directory changes, file events, the monitor's steps and the policy engine's takes, all file contents and compilers", "why_tests_cant": "The windows between event, checksum and compilation are races of ten seconds to microseconds; a test exercises one interleaving, and rest is a liveness property.", "anchors": ["core/policyengine/monitor/localpolicymonitor.go:StartMonitor", "core/policyengine/monitor/localpolicymonitor.go:dequeueFileEvents", "core/policyengine/monitor/localpolicymonitor.go:calculateChecksum", "core/policyengine/monitor/localpolicymonitor.go:CheckForPolicyUpdate", "core/policyengine/monitor/localpolicymonitor.go:StopMonitor", "core/policyengine/policyengine.go:Process"]}
{"id": "C100", "title": "From the policy directory to the policies in force", "statement": "The policy monitor and the policy engine run concurrently, joined by the channel of interpreters. Whatever the directory does, the policies in force are the first ones or what the compiler made of files it read (a set that does not compile never gets in force), and with nothing pending they are those pushed last. Once the directory has stopped changing and the monitor has come to rest under the conditions of C99, with the policies compiled and room in the channel, then from as many policy checks on as interpreters were pending (at most ten) every record is handed to the policies compiled from the directory as it is.", "quantifier": "all histories of the directory, all inputs, clocks, numbers of workers, and all interleavings of directory, monitor, engine and workers", "why_tests_cant": "Monitor, engine and workers are concurrent, the directory changes at any time, and the guarantee is about every later record.", "anchors": ["core/policyengine/policyengine.go:Init", "core/policyengine/policyengine.go:Process", "core/policyengine/policyengine.go:Cleanup", "core/policyengine/monitor/localpolicymonitor.go:CheckForPolicyUpdate", "core/policyengine/monitor/localpolicymonitor.go:GetInterpreterChan"]}
{"id": "C101", "title": "The configuration in effect is that of the file named on the command line", "statement": "The pipeline that is loaded is the one described by the configuration file named on the command line (or loading is reported as an error): the program reads that file, applies the environment's overrides and global items to every stage, uses the driver named on the command line or those of the file among the built-in ones and the plugins of the driver directory (all of which must be usable, a later one replacing an earlier or built-in one of its name), and loads every stage in its place. A missing file or a directory is an error and does not crash the program.", "quantifier": "all contents of the directory, all paths, environments, plugin directories and configurations", "why_tests_cant": "What is read depends on every other file in the directory; the combinations of files, extensions, plugins and environments are unbounded.", "anchors": ["driver/pipeline/plugincache.go:GetConfig", "driver/pipeline/plugincache.go:LoadDrivers", "driver/pipeline/pipeline.go:Load"]}
{"id": "C102", "title": "From a directory of Sigma rules to the log", "statement": "With the policy language set to Sigma, the program starts only if there are rule files below the policy path, all readable, and the Sigma configuration file is absent or can be parsed; if the rules are supported it starts with exactly the rules in these files (texts that are no rules say nothing) and the configured field mappings, and every run over files with older parents ends without an error, the log holding one line for exactly the events some condition of the rules in force is true of.", "quantifier": "all directories, rule files, Sigma configurations, pipeline configurations, event streams and schedules", "why_tests_cant": "The directories, rules, streams and interleavings are unbounded.", "anchors": ["core/policyengine/policyengine.go:Init", "core/policyengine/policyengine.go:createPolicyInterpreter", "core/policyengine/policy/sigma/compiler.go:compile", "core/policyengine/monitor/localpolicymonitor.go:NewLocalPolicyMonitor"]}
{"id": "C103", "title": "Policies reloaded in the running program: directory to log", "statement": "With the local policy monitor, the program starts with the policies in the policy directory. However the directory changes while it runs, when the pipeline has shut down after the records of the input: the events fall into consecutive stretches, one for each policy set in force in turn, and the log holds, for each stretch, one line for exactly the events its policies want logged. The policy sets after the first are those the monitor pushed, in order, and their texts are texts that policy files of the directory had at some time. If the directory stopped changing, every change was reported, the monitor came to rest and nothing is left waiting, the last stretch is logged under the policies of the directory as it is. Policies that do not compile change nothing. Pending policies never keep the pipeline from shutting down.", "quantifier": "all configurations, policy directories and their histories, input records, schedules of the driver, the stages, the workers and the monitor", "why_tests_cant": "The directory may change, and the monitor and the engine may act, at any point of an unbounded run; the claim is about all interleavings.", "anchors": ["core/policyengine/policyengine.go:Process", "core/policyengine/policyengine.go:Init", "core/policyengine/policyengine.go:Cleanup", "core/policyengine/monitor/localpolicymonitor.go:StartMonitor", "core/policyengine/monitor/localpolicymonitor.go:CheckForPolicyUpdate", "driver/pipeline/pipeline.go:Wait"]}
{"id": "C104", "title": "From the configuration to the terminal or to syslog", "statement": "With a configuration whose exporter prints to the terminal or sends to syslog, as JSON or ECS, the program starts (for syslog: if and only if the daemon can be reached, and never otherwise), and a run over trace files that ends does so without an error, having printed exactly one line per event that the policies want logged, with the line describing that event, in order with a single worker. For syslog, what was sent is a subsequence of these messages; each failed send costs at most one export buffer of messages; without buffering each message is sent exactly once and exactly the messages whose send failed are missing; if no send fails everything is sent.", "quantifier": "all configurations of the usual shape and environments, all policies that parse, all trace files with older parents, all schedules of drivers, workers and exporter, all patterns of failing sends, all buffer sizes", "why_tests_cant": "The set of messages depends on the policies, the schedule of the workers and on which sends fail; a test sees one combination.", "anchors": ["core/exporter/transports/terminal.go:Export", "core/exporter/transports/syslog.go:Init,Export", "core/exporter/exporter.go:Process,process", "core/exporter/encoders/json.go:Encode", "core/exporter/encoders/ecs.go:Encode"]}
{"id": "C105", "title": "Several policy engines and exporters", "statement": "In a configuration in which the reader feeds several policy engines and these feed several exporters (each channel named once as an output and once as an input, with the right types), every stage starts and a run over trace files ends without an error. For each policy engine the events of the input fall into consecutive stretches, one for each of its policy sets in force, and every exporter fed by it puts out one message per event that these policies want logged, in the exporter's own format and to its own destination (one line each for the terminal or a file that can be written, what gets through for syslog or a failing file, bulks of documents for Elastic): all exporters of an engine report the same events under the same policies, none takes messages from another.", "quantifier": "all configurations whose channels form a tree, all environments and policies, all trace files with older parents, all schedules of the drivers, stages and workers, all failing syslog sends", "why_tests_cant": "The messages interleave differently at every exporter depending on the schedule of workers and channels; the shape of the configuration is unbounded.", "anchors": ["driver/pipeline/pipeline.go:Load", "core/flattener/flattener.go:SetOutChan,out", "core/policyengine/policyengine.go:out,SetOutChan,Cleanup", "core/exporter/exporter.go:Process"]}
{"id": "C106", "title": "A log file or an Elastic cluster that fails at times", "statement": "Whatever writes to the log file fail, and however many bytes get written before they do, a run over trace files ends without an error, and the file holds one piece of every message that the policies want logged, in order: its line; or the message without its newline; or only its beginning; or nothing. Every missing newline and every cut message is due to a failing write of its own, each cut message costs at most the rest of one event buffer of messages (none without buffering), and as long as no write fails all messages are there. The same for Elastic, whatever library calls fail: the documents are divided into batches of at most an event buffer, in order, and all but at most one batch for each failing call make a complete bulk; the others at most a bulk of their first documents that is never closed. With another format than ECS no document is ever sent to Elastic.", "quantifier": "all patterns of failing writes and library calls, all buffer sizes, all configurations, policies, trace files with older parents and schedules", "why_tests_cant": "The damage depends on which write fails, at which byte, in which batch, and on the schedule that makes the batches.", "anchors": ["core/exporter/transports/file.go:Export", "core/exporter/transports/elastic.go:Export", "core/exporter/exporter.go:process,export"]}
{"id": "C107", "title": "Sigma rules reloaded in the running program: directory to log", "statement": "With the Sigma language and the local policy monitor, the program starts with exactly the rules in the rule directory. However the directory changes while it runs, when the pipeline has shut down after the records of the input: the events fall into consecutive stretches, one for each rule set in force in turn, and the log holds, for each stretch, one line for exactly the events of which a condition of its rules is true, carrying these rules. The rule sets after the first are those the monitor pushed, in order, and they are the rules in texts that files of the directory had at some time, with the field mappings of the configuration. If the directory stopped changing, every change was reported, the monitor came to rest and nothing is left waiting, the last stretch is logged under the rules of the directory as it is.", "quantifier": "all configurations, rule directories and their histories, field mappings, input records, schedules of the driver, the stages, the workers and the monitor", "why_tests_cant": "The directory may change, and the monitor and the engine may act, at any point of an unbounded run; the claim is about all interleavings and all rules.", "anchors": ["core/policyengine/policyengine.go:Process", "core/policyengine/policyengine.go:Init", "core/policyengine/monitor/localpolicymonitor.go:StartMonitor", "core/policyengine/monitor/localpolicymonitor.go:CheckForPolicyUpdate", "driver/pipeline/pipeline.go:Wait", "core/policyengine/policy/sigma/compiler.go:Compile"]}
{"id": "C108", "title": "The build for OpenTelemetry logs: policy directory to messages, with reloads", "statement": "In the build for OpenTelemetry logs, with the Falco language, the program starts exactly if the policy files below the policy path can be read, are policies of the rule language and have no cyclic definitions. With the local policy monitor, however the directory changes while the program runs, when the pipeline has shut down: the input records fall into consecutive stretches, one for each policy set in force in turn, and the messages produced to Kafka (or the lines of the log file) are, for each stretch, those of the records its policies want exported. The policy sets after the first are those the monitor pushed, in order, with texts that policy files of the directory had at some time; if the directory has stopped changing and everything has come to rest, the last is the directory's.", "quantifier": "all configurations, policy directories and their histories whose rules read only input attributes, input records without holes that were not processed before, schedules of the driver, the stages, the workers and the monitor", "why_tests_cant": "The directory may change, and the monitor and the engine may act, at any point of an unbounded run; the claim is about all interleavings.", "anchors": ["core/policyengine/policyengine.go:Process", "core/policyengine/policyengine.go:Init", "core/policyengine/monitor/localpolicymonitor.go:StartMonitor", "core/policyengine/monitor/localpolicymonitor.go:CheckForPolicyUpdate", "driver/pipeline/pipeline.go:Wait", "core/policyengine/policyengine_otel.go:processAsync", "core/policyengine/policy/falco/compiler.go:Compile"]}
{"id": "C109", "title": "Benchmark settings", "statement": "Unless performance logging is on, the settings bench.ruleindex and bench.rulesetsize have no effect; without them all rules are in force. With performance logging on, bench.ruleindex leaves exactly the rule at that position, if there is one; otherwise bench.rulesetsize leaves exactly that many rules, the first ones, if there are as many. In any case the rules in force are consecutive rules of the policies, all filters are in force, and every record is dropped, annotated and put out as with policies of these rules and filters. A setting that is no number counts as 0, without an error.", "quantifier": "all settings, policies, records and actions that leave what rules read unchanged", "why_tests_cant": "Quantifies over all rule lists, positions and records.", "anchors": ["core/policyengine/engine/interpreter.go:Compile", "core/policyengine/engine/interpreter.go:worker", "core/policyengine/engine/config.go:CreateConfig"]}
{"id": "C110", "title": "Paths of links come apart into target and link", "statement": "A stored path that reads \"source->destination target\" (blanks, a hexadecimal number below 2^64, the separator, blanks, a number, blanks, a word) yields the target as path and \"source->destination\" as link; every other stored path, in particular every absolute path and every path without an arrow, is kept whole and has no link. A link as the collector writes it (two 64-bit addresses, a path without spaces) comes apart into exactly these. Findings: a path whose arrow was escaped as \\u003e before a sixteen-digit address is never taken apart, although the code has a format for it; a target with a space is cut off at it.", "quantifier": "all stored paths", "why_tests_cant": "A scanner on arbitrary strings: the claim is an exact characterisation of the strings that are split and of the parts, for strings of every length.", "anchors": ["core/policyengine/source/flatrecord/utils.go:parseSymPath", "core/policyengine/source/flatrecord/fieldmapper.go:mapSymlink"]}
{"id": "C111", "title": "Path, directory and name of a file fit together", "statement": "For an event whose file path is absolute and made of proper names, the path field is the path, the directory field is the path without the last name (\"/\" if nothing is left), the name field is the last name and the link field is empty; the same holds for the second path of renames and links, and for a stored link with the target's path. For any path that begins with a slash the directory is an absolute path of proper names. Findings: for a path with a trailing slash the directory is the whole path; an event without a file has the directory and the name \".\".", "quantifier": "all records, all paths", "why_tests_cant": "Paths are unbounded; the relation between the four fields must hold for every path.", "anchors": ["core/policyengine/source/flatrecord/fieldmapper.go:mapDir", "core/policyengine/source/flatrecord/fieldmapper.go:mapName"]}
{"id": "C112", "title": "Process identifiers identify processes", "statement": "The identifier of an event's process equals that of another event's process exactly if process number and creation time are the same, and the identifier of the parent equals that of another event's process exactly if these agree with the parent's, for creation times of nineteen digits (2001 to 2262, in nanoseconds) and as far as the hash has no collisions. Finding: without the bound on the times different processes share an identifier, whatever the hash, because the numbers are written one after the other without a separator.", "quantifier": "all pairs of records, all collision-free hashes", "why_tests_cant": "Injectivity over all pairs of processes.", "anchors": ["core/policyengine/source/flatrecord/fieldmapper.go:mapOID"]}
{"id": "C113", "title": "Stages that run side by side compute what they would compute alone", "statement": "Several exporters, or several readers, of one program run at the same time. The ECS document identifiers an exporter computes, the keys a reader computes for its duplicate filter, and the tags an exporter puts into a document are those it would compute if it ran alone. This holds of the tags, for any number of exporters given the same record, although they append to one shared slice; it holds of identifiers and keys with a single ECS exporter, a single filtering reader, and whenever nobody writes to the shared scratch buffer between another's writing and reading of it. Findings: with two ECS exporters there is an execution in which a record's identifier is computed with the other's number, and two different records get one identifier; with two filtering readers there is an execution in which an event that is no duplicate is dropped.", "quantifier": "all numbers of exporters and readers, all records, all interleavings of their reads and writes", "why_tests_cant": "A data race: whether the result is right depends on the interleaving of single memory accesses, which a test does not control.", "anchors": ["core/exporter/encoders/ecs.go:byteInt64", "core/exporter/encoders/ecs.go:encodeID", "core/exporter/encoders/ecs.go:encode", "core/flattener/filter.go:byteInt64", "core/flattener/filter.go:semanticHash", "core/policyengine/policyengine.go:out"]}
{"id": "C114", "title": "OpenTelemetry: any number of policy engines in a row", "statement": "In the build for OpenTelemetry logs a pipeline may contain any number of policy engines one behind the other. Every such configuration whose stages can be initialised is loaded and started with the channels connected as configured; and for every stream of records, every schedule and every moment at which an engine's policies are replaced, the messages exported are those of the records that came through all engines, each unchanged except that the rules that apply are listed, engine by engine, behind each other in one scope. With policies that stay the same these are exactly the records that all engines want, as often as delivered, in their order if each engine has one worker. At every moment before, and so if the process is stopped or ends with an error, the messages produced and the lines in the file are the first of such a sequence for the records delivered by then. Required: no rule reads what processors write; filters may ask which rules earlier engines noted, but not for tags.", "quantifier": "all numbers of engines, all configurations of a row, all policies, all streams of records, all schedules, all histories of policy replacements", "why_tests_cant": "The number of stages, the schedule and the moments of policy replacement are unbounded.", "anchors": ["driver/pipeline/pipeline.go:Load", "core/policyengine/policyengine.go:Process", "core/policyengine/source/otel/contextualizer.go:AddRules", "core/policyengine/engine/interpreter.go:worker"]}
{"id": "C115", "title": "OpenTelemetry: policy engines side by side share the record", "statement": "A policy engine with several output channels sends one and the same record to each. If behind them there are further policy engines and exporters, the messages of each branch should list the rules of the engines on its own path only. Proved: each branch exports the record at most once and only if its own policies want it, and what it exports is the record with the rules of its own engine and of those engines of other branches that have come to the record before. Finding: branches are never separate: if two branches export a record, one of them, in every schedule, lists the rules of both.", "quantifier": "all numbers of branches, all policies, all records, all orders of the branches' steps", "why_tests_cant": "What a message contains depends on the order in which the branches come to the record.", "anchors": ["core/policyengine/policyengine.go:out", "core/policyengine/source/otel/contextualizer.go:AddRules", "core/exporter/encoders/otel.go:Encode"]}
{"id": "C116", "title": "The plugins shipped with the processor", "statement": "The three plugins in the repository do the following when they are loaded. The handler 'printer': for a stream in which every event is of a process announced since the last header, one message per process event, network flow, file flow and file event, in stream order, with the kind of the event, the executable of its process as known at that point, and the thread id (for flows the destination port or the file descriptor); the first event of an unannounced process ends the program (finding). The processor 'example' behind the flattener: one message per process event, in order, with executable (empty, if the process is not known) and thread id, nothing else, and it never stops early. The action 'now': a record that is not dropped gets, for every time 'now' is named in the actions of a rule that fires, one more tag with the clock as read then, in the order of the actions; its telemetry and the rules attached are the same as without the action; a dropped record is left alone.", "quantifier": "all streams of records (on which the reader returns), all policies, all sets of action plugins with 'now' among them whose other members leave telemetry, rules and tags alone, all readings of the clock", "why_tests_cant": "The streams, policies and clock readings are unbounded; whether the printer survives depends on the whole history of the stream.", "anchors": ["plugins/handlers/printer/printer.go:HandleNetFlow", "plugins/handlers/printer/printer.go:HandleProcEvt", "plugins/processors/example/example.go:Process", "plugins/actions/example/now.go:addMyTag"]}
{"id": "C117", "title": "From the packets of a socket to records", "statement": "If every packet of every connection holds the encoding of one record of at most 16384 bytes, the socket driver sends exactly these records, in order (a prefix of them if it is asked to stop, all of them otherwise), whatever the lengths of the packets before; and the whole program in the configuration of C76 returns without an error with a log that is complete for them. In general it sends one record for every packet up to the first that is empty, too long or flagged by the kernel, decoded from a buffer of 16384 bytes whose i-th byte is that of the most recent packet of the connection longer than i. So a longer record ends its connection, and a packet that was cut off is completed with the end of an earlier one and can be delivered, without any error, as a mixture of two records (findings).", "quantifier": "all lists of connections and packets, all records, all decoders that read a record back from its encoding whatever comes behind it (the Avro decoder, for every schema, is shown to be one), all stop requests", "why_tests_cant": "The packets, their number and their lengths are unbounded; what is decoded depends on all the packets of the connection before.", "anchors": ["driver/sysflow/streamingdriver.go:Run", "driver/sysflow/readmsgunixlinux.go:readMsgUnix"]}
{"id": "C118", "title": "A path to trace files", "statement": "Given a directory of trace files, the file driver sends the records of the files in the alphabetical order of their names, whatever the order in the file system, of each file those before the first that cannot be read, a prefix of them if it is asked to stop; given a file, its records. So rotated files named by a common base and their time are read in the order of time, as long as the times have the same number of digits (not across a change in their number: finding), and the whole program in the configuration of C76 returns without an error with a log that is complete for them in this order. A directory inside the directory ends the run with an error after the files before it, with the channel left open; nothing at the path, an unreadable or empty directory, or a file that is no trace end it at once; and if the status of the path cannot be read for another reason than its absence the program ends with a panic (findings).", "quantifier": "all directories with any entries in any order, all contents of the files, all stop requests, all schedules of the program", "why_tests_cant": "The directory, the names and the files are unbounded, and the order in which a file system keeps entries is arbitrary.", "anchors": ["driver/sysflow/filedriver.go:getFiles", "driver/sysflow/filedriver.go:Run"]}
{"id": "C119", "title": "The published list of fields", "statement": "The exported list of fields has every exported field name exactly once; names with fewer dot-separated parts come first, names with as many parts are in alphabetical order; the list does not depend on the order in which the map of fields is iterated.", "quantifier": "all orders of map iteration", "why_tests_cant": "Go randomises map iteration; a test sees a few of the orders of more than a hundred keys.", "anchors": ["core/policyengine/source/flatrecord/fieldmapper.go:getFields"]}
{"id": "C120", "title": "The set of strings of the exporter's helpers", "statement": "After any additions and removals the set contains exactly the strings whose last operation added them, its length is their number, and the subset test says yes exactly if every string of the one is contained in the other.", "quantifier": "all sequences of operations, all strings, all orders of map iteration", "why_tests_cant": "Ranges over all histories of operations.", "anchors": ["core/exporter/utils/set.go:Add", "core/exporter/utils/set.go:Remove", "core/exporter/utils/set.go:Contains", "core/exporter/utils/set.go:Len", "core/exporter/utils/set.go:IsSubset"]}
{"id": "C121", "title": "OpenTelemetry: conditions on what has been noted", "statement": "A condition on sf.processor.rules of a record in which rules have been noted never panics and asks about the names of these rules: contains asks for a name containing the text, startswith and endswith for the first or last name being the text; equality and `in` are true of no record. A condition on sf.processor.tags asks in the same way about their tags, and panics exactly if rules are noted, none of them has a tag, and the operator is one of startswith and endswith. An engine behind others may filter by the rules they noted: it drops the record exactly if a filter is true of the record with these rules in it.", "quantifier": "all records, all lists of noted rules, all texts and operators, all policies whose filters do not read the tags", "why_tests_cant": "Ranges over all records, lists of rules and policies.", "anchors": ["core/policyengine/source/otel/operations.go:Compare", "core/policyengine/source/otel/operator.go:doArrayComparison", "core/policyengine/source/otel/contextualizer.go:AddRules", "core/policyengine/engine/interpreter.go:worker"]}
{"id": "C122", "title": "Policies reloaded while ECS documents go to Elastic, or messages to terminal, syslog or a failing file", "statement": "With the local policy monitor, however the policy directory changes while the program runs, when the pipeline has shut down after the records of the input: the events fall into consecutive stretches, one for each policy set in force in turn, and the ECS documents (or the messages, JSON or ECS) made are, for each stretch, one for exactly the events its policies want logged. Elastic has been asked for complete bulks of these documents, as many as its answers allow; if all calls succeed, an index without repeated ids that started with other documents ends with these and, for every logged event, a document of its id, and nothing else. The terminal shows these messages, one a line; syslog gets those that get through and a file keeps those whose buffers could be written whole, in both cases exactly as without reloading. The policy sets after the first are those the monitor pushed, in order, and their texts are texts that files of the directory had at some time. An edit of a policy file to a text that compiles takes effect in some run. The program finishes from wherever the driver is done.", "quantifier": "all record streams, all histories of the policy directory, all policy programs, all schedules of reader, workers, monitor, exporter and timer, all answers of Elastic, syslog and the file system", "why_tests_cant": "Ranges over every interleaving of directory changes, monitor and pipeline, every stream and every pattern of failures.", "anchors": ["core/policyengine/policyengine.go:Process", "core/policyengine/monitor/localpolicymonitor.go:StartMonitor", "core/policyengine/monitor/localpolicymonitor.go:CheckForPolicyUpdate", "core/exporter/encoders/ecs.go:Encode", "core/exporter/transports/elastic.go:Export", "core/exporter/transports/terminal.go:Export", "core/exporter/transports/syslog.go:Export", "core/exporter/transports/file.go:Export", "driver/pipeline/pipeline.go:Wait"]}
{"id": "C123", "title": "Sigma rules with every output, with and without reload", "statement": "With Sigma rules, whatever the output is: when the pipeline has shut down after the records of the input, the events fall into consecutive stretches, one for each rule set in force in turn (the first is that of the directory at the start), and the messages made (JSON records or ECS documents) are, for each stretch, one for exactly those events of which a condition of a rule of its set is true, in its rules' names, tags and priority. The terminal shows these messages, one a line; syslog gets those that get through; a file keeps those whose buffers could be written whole; Elastic has been asked for complete bulks of the documents, as many as its answers allow, and, if all calls succeed, an index without repeated ids that started with other documents ends with these and, for every matching event, a document of its id, and nothing else. With a monitor the rule sets after the first are those it pushed, in order, of texts that files of the directory had at some time. An edit of the rule file takes effect in some run. The program finishes from wherever the driver is done.", "quantifier": "all record streams, all sets of supported Sigma rules and field mappings, all histories of the rule directory, all schedules of reader, workers, monitor, exporter and timer, all answers of Elastic, syslog and the file system", "why_tests_cant": "Ranges over every rule set, stream, interleaving of directory changes with the pipeline and pattern of failures.", "anchors": ["core/policyengine/policy/sigma/compiler.go:Compile", "core/policyengine/engine/interpreter.go:ProcessAsync", "core/policyengine/policyengine.go:Process", "core/policyengine/monitor/localpolicymonitor.go:CheckForPolicyUpdate", "core/exporter/encoders/ecs.go:Encode", "core/exporter/transports/elastic.go:Export", "core/exporter/transports/terminal.go:Export", "core/exporter/transports/syslog.go:Export", "core/exporter/transports/file.go:Export", "driver/pipeline/pipeline.go:Wait"]}
{"id": "C124", "title": "OpenTelemetry: engines evaluate conditions on a shared record at the same time", "statement": "Policy engines behind several outputs are given one and the same OpenTelemetry record, and every evaluation of a condition appends the attributes of scopes and log records behind the record's own list of resource attributes, in memory that all of them write to. If the record's processor scope, if it has one, is its last scope, and engines note their rules one at a time (otherwise see C125), this does no harm: every evaluation reads, in their order, all attributes that the record had when it began, and after them at most some of those noted since; on a record that arrived without a processor scope, conditions on attributes other than the processor's have the result they have on the record as it arrived. Evaluations write nothing but the room behind the list: never over the list itself, never behind the array's end. Finding: if another scope follows the processor's, an evaluation may miss an attribute that the record has all the time.", "quantifier": "all records, all room behind the resource's attributes and all growth of slices, any number of evaluations, all interleavings of their single reads and writes with what engines note", "why_tests_cant": "A data race: it ranges over all interleavings of single memory accesses.", "anchors": ["core/policyengine/source/otel/operations.go:getAllAttributes,Exists,Compare,FoldAny,FoldAll,RegExp", "core/policyengine/source/otel/contextualizer.go:AddRules,getOrCreateProcessorScopeAttributes,getOrCreateAttribute", "core/policyengine/policyengine.go:out"]}
{"id": "C125", "title": "OpenTelemetry: engines note their rules in a shared record at the same time", "statement": "Policy engines behind several outputs are given one and the same OpenTelemetry record and note the rules that apply in it, without a lock. Whatever they do at the same time: a value under sf.processor.rules is the name of a rule that an engine has noted, a value under sf.processor.tags one of its tags; nothing that has been noted is listed twice; the scopes that the record arrived with stay what they are and where they are; noting never waits and comes to its end. What is noted while no other engine is at it is listed from then on, whatever engines do later, at the same time or not; so if engines note one at a time, nothing is lost: the record then has, behind what it arrived with, one scope of the processor that lists the rules in the order in which they were noted, each with its tags. Finding: of two rules noted at the same time one may be lost, a record may get two scopes of the processor, and may end as no order of the engines would leave it.", "quantifier": "all records without a processor scope, any number of engines, rules and tags, all growth of slices, all interleavings of their single reads and writes", "why_tests_cant": "A data race: it ranges over all interleavings of single memory accesses.", "anchors": ["core/policyengine/source/otel/contextualizer.go:AddRules,getOrCreateProcessorScopeAttributes,getOrCreateAttribute", "core/policyengine/engine/interpreter.go:worker", "core/policyengine/policyengine.go:out"]}
{"id": "C126", "title": "Stopped at any moment: every pipeline and destination", "statement": "Whatever the driver does and wherever the process is stopped: in a configuration with several policy engines and exporters the records sent so far are the first of those to be sent, and for every policy engine with policies their events fall into stretches, one for each of its policy sets in force, such that each exporter it feeds has put out the beginning of what it would put out for messages complete for these stretches: printed it, written it to its file, sent it to syslog, or requested it of Elastic (and never a request for a document that is not ECS). The same holds of the log of a pipeline with the duplicate filter (for the surviving events), with ECS documents, with Sigma rules, and without policies (one line for each event sent so far, in their order), and of the messages given to the producer in OpenTelemetry without policies.", "quantifier": "all such configurations, records, drivers, policy sets, schedules, and all moments of all runs", "why_tests_cant": "It ranges over all moments at which a process can be stopped, over all schedules.", "anchors": ["driver/pipeline/pipeline.go:Load,Wait", "core/exporter/exporter.go:Process", "core/exporter/transports/file.go:Export", "core/exporter/transports/terminal.go:Export", "core/exporter/transports/syslog.go:Export", "core/exporter/transports/elastic.go:Export"]}
{"id": "C127", "title": "Elastic: started over after a crash", "statement": "The identifier of an event's document depends only on the records up to the event: not on the run, the schedule, the policies, the rules they attach or the encoder's settings. So if the process, writing ECS documents to Elastic under one policy set, is stopped any number of times, wherever, with whatever library calls failing and whatever part of the documents requested so far stored in whatever order, and is then started over on the same files and runs to the end with all calls succeeding, the index holds, besides what it held at first (unchanged), exactly the identifiers of the events that the policies want logged, each once, and only documents of these events: the same identifiers as after a run that was never stopped. A further complete run leaves the index exactly as it is.", "quantifier": "all records, policies, indices, numbers and moments of stops, drivers, failures of library calls, stored parts and orders, schedules", "why_tests_cant": "It ranges over all crash points of all runs and all orders in which documents are stored.", "anchors": ["core/exporter/encoders/ecs.go:Encode,encode,encodeID", "core/exporter/transports/elastic.go:Export", "core/exporter/exporter.go:Process", "driver/pipeline/pipeline.go:Wait"]}
{"id": "C128", "title": "Output at every moment, while policies change", "statement": "With the local policy monitor and a policy directory that changes in any way at any time: at every moment of a run over records whose process parents are older, what has come out of the exporter (what is printed, the lines sent to syslog, the content of the file, the requests to Elastic, the log of JSON records) is the beginning of what comes out for messages that are complete for the events of the records sent so far, under the policies at the start and then further policy sets. These sets begin with those the engine has taken so far, are the first of those the monitor has pushed so far, and each was compiled from files as they were in the directory at some moment before. It holds whichever library calls fail or writes are cut short, for Falco policies and for Sigma rules.", "quantifier": "all configurations with a monitor, policy texts, records, histories of the directory, moments, failures of calls and writes, schedules", "why_tests_cant": "It ranges over all moments of all runs and all histories of the directory, interleaved with the pipeline in any way.", "anchors": ["core/policyengine/policyengine.go:Process,Cleanup", "core/policyengine/monitor/localpolicymonitor.go:StartMonitor,CheckForPolicyUpdate", "core/exporter/exporter.go:Process", "driver/pipeline/pipeline.go:Wait"]}
{"id": "C129", "title": "OpenTelemetry: output at every moment, while policies change", "statement": "In the build for OpenTelemetry logs, with the local policy monitor and a policy directory that changes in any way at any time: at every moment of a run over deliverable records, the messages produced to Kafka are the beginning of a sequence that holds, in order, each log of the records delivered so far that a policy set in force for its record lets through, under the policies at the start and then further policy sets. These sets begin with those the engine has taken so far, are the first of those the monitor has pushed so far, and each was compiled from files as they were in the directory at some moment before. For a log file, whatever first part has been written has as its lines the first of such messages, the last perhaps cut short.", "quantifier": "all configurations with a monitor, policy texts, records, histories of the directory, moments, schedules", "why_tests_cant": "It ranges over all moments of all runs and all histories of the directory, interleaved with the pipeline in any way.", "anchors": ["core/policyengine/policyengine.go:Process", "core/policyengine/monitor/localpolicymonitor.go:StartMonitor,CheckForPolicyUpdate", "core/exporter/exporter.go:Process", "core/exporter/transports/kafka.go:Export"]}
{"id": "C130", "title": "OpenTelemetry: refused messages, failing writes, the terminal", "statement": "In the build for OpenTelemetry logs: whichever messages the Kafka producer refuses, and whichever writes to the log file fail or are cut short, the pipeline still drains. When `Wait` returns there is a sequence of messages complete for the records delivered (each wanted record's encoding with its rules noted, if it can be encoded), and: the producer has been handed each of them exactly once, and those it accepts have been sent, in order; the log file keeps of each one piece, in order, where every missing newline and every cut message is due to a failing write of its own, a cut message costs at most the rest of one buffer, and everything before the first failure is there; the terminal shows each on a line. At every moment, what has been sent, written or printed is the beginning of that. It holds, too, beside a policy directory that changes at any time, and for what is loaded from the configuration.", "quantifier": "all configurations, policy texts, records, failures of sends and writes, histories of the directory, moments, schedules", "why_tests_cant": "It ranges over all patterns of failures together with all schedules of the goroutines and all moments.", "anchors": ["core/exporter/transports/kafka.go:Export", "core/exporter/transports/file.go:Export", "core/exporter/transports/terminal.go:Export", "core/exporter/exporter.go:Process,process", "core/exporter/encoders/otel.go:Encode", "core/policyengine/policyengine.go:Process"]}
{"id": "C131", "title": "OpenTelemetry: a row of engines with failures", "statement": "In the build for OpenTelemetry logs with any number of policy engines in a row: whichever messages the Kafka producer refuses, whichever writes to the log file fail or are cut short, and also when printing to the terminal, the pipeline drains, and there is a sequence of messages, one for each record every engine has passed on that can be encoded, with the rules of all the engines noted on it, such that the producer has been handed each of them once and has sent those it accepts in order; the log file keeps of each one piece, in order, every loss due to a failing write of its own; the terminal shows each on a line. With the file driver this is so when the program ends, for some of the records from the first on, for all of them if it was never told to stop; at every moment of the process, with any driver, what has been sent, written or printed is the beginning of that.", "quantifier": "all numbers of engines, configurations, policy texts, records, failures of sends and writes, moments, schedules", "why_tests_cant": "It ranges over all lengths of the row and all patterns of failures together with all schedules and all moments.", "anchors": ["driver/pipeline/pipeline.go:Load", "core/policyengine/policyengine.go:Process", "core/policyengine/policyengine_otel.go:out", "core/exporter/exporter.go:Process,export", "core/exporter/transports/kafka.go:Export", "core/exporter/transports/file.go:Export", "core/exporter/transports/terminal.go:Export"]}
{"id": "C132", "title": "Elastic: started again with other policies", "statement": "The identifier of an event's ECS document does not depend on the policies, the rules they attach, the numbers of workers, the capacities and sizes of the queues and buffers, or the encoder's settings. So when the program is started any number of times on the same files, each time with policies (also ones that change while it runs) and settings of its own, and is stopped anywhere, with whatever library calls failing and whatever part of the requested documents stored in whatever order: the index never holds two documents of one event; what it held at first is there unchanged; everything else in it is a document of an event that policies then in force in one of the starts wanted logged, with the rules they attached. A complete run under one policy set then adds the identifiers of exactly the events that this policy set wants logged and that have no document yet; a document that was there stays as it was, also when the rules now in force would attach other rules to its event.", "quantifier": "all numbers of starts, policies and settings of each, records, indices, moments of stops, failures of calls, stored parts and orders, schedules", "why_tests_cant": "It ranges over all histories of starts, each with its own configuration, crash point, schedule and failures.", "anchors": ["core/exporter/encoders/ecs.go:Encode,encode,encodeID", "core/exporter/transports/elastic.go:Export", "core/exporter/exporter.go:Process", "core/policyengine/policyengine.go:Process", "driver/pipeline/pipeline.go:Load,Wait"]}
{"id": "C133", "title": "What is under a log file's path", "statement": "A file exporter starts with an empty log: as long as no exporter opens the path again, what is under the path is exactly what this exporter has written since, in order, whatever was there before (a log of an earlier run is lost) and whatever other exporters write. If another exporter with the same path starts later, everything the first writes from then on is in a file that no path leads to: under every path there is what there would be without those writes. If the operating system does not allow the old log to be removed, but allows it to be opened, this is not noticed, and the exporter goes on at its end.", "quantifier": "all numbers of exporters, of this process and of earlier ones, all paths, interleavings of starts and writes, outcomes of removing, opening and writing", "why_tests_cant": "It ranges over all interleavings of the exporters' starts and writes.", "anchors": ["core/exporter/transports/file.go:Init,Export", "core/exporter/exporter.go:Init"]}
