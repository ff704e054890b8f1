# A formal model of sf-processor in Lean 4

The model follows the Go code function by function; every definition that models code cites file and lines under /repo.
Theorems about it are stated against small separate specifications and proved for all inputs, states and executions.
`properties.jsonl` lists the properties in terms of observable behaviour, `MANIFEST.json` maps them to theorems, `AXIOMS.md` lists
the axioms of each of these theorems, `seeded/LOG.jsonl` records attempts to break the model without a theorem noticing.

## 1 Trusted base

* **Lean 4.33.0's kernel.** Axioms: only `propext`, `Classical.choice`, `Quot.sound` (per theorem: `AXIOMS.md`). There are no axioms of our
  own, no unfinished proofs, no compiled decision procedures. `decide +kernel` is evaluated by the kernel; it is used for finite facts about
  tables and literals (e.g. "no two exported fields have the same name") and in examples, never as a stand-in for a quantified claim.
* **The transcription** from Go to Lean, made by reading. It is not checked mechanically. The citations in the comments are there to let a
  reader check it. Simplifications are stated in the comment of the definition concerned, and collected in section 4.
* **Go's primitives** are given their documented meaning: buffered channels (FIFO queue, capacity, closed flag; send on and close of a closed
  channel panic), `sync.WaitGroup`, `select` (any ready case), maps (association; iteration in any order where the order is observable), slices
  (lists; aliasing modelled where it matters, as in the OTel file driver), clocks (arbitrary sequences of readings).
* **Panics and non-termination** are outcomes of the model (`none`, fuel exhausted, a `panicked` flag), so that theorems say when they cannot occur.

## 2 Layout

`lean/Verif/<Area>/`: model files (listed below), `Spec.lean` or a "Specification" section with the independent vocabulary, `*Props.lean` with theorems
and examples that meet their hypotheses.

| area | model files | code |
|---|---|---|
| Base | Strings, Decimal, Space, Utf8, Base64, AMap, SeqMap, Machine | strings.Split/Trim/…, strconv, unicode/utf8, base64, maps |
| Policy | Model, Ops | core/policyengine/policy (criteria, predicates, operators) |
| Engine | Model (interpreter, rules, actions), Pool (workers), Swap (Process, hot swap) | core/policyengine/engine/interpreter.go, actions.go; policyengine.go |
| Monitor | Model | core/policyengine/monitor |
| FlatRecord | Record (getters, field table, mappers, context), Ops (comparison operators) | core/policyengine/source/flatrecord |
| Otel | Model, Enrich | core/policyengine/source/otel |
| Falco | Regex, Lexer, Parser, Policy, Model (Vocabulary: which texts tokens have) | core/policyengine/policy/falco: Sfpl.g4 lexer and grammar, visitor/listener |
| Sigma | Model | core/policyengine/policy/sigma |
| SysFlow, Cache, Processor | Entities, Tables, Reader | core/cache/tables.go, core/processor/reader.go, processor.go |
| Flattener | Model, Filter | core/flattener (handlers, semantic key, duplicate filter) |
| Exporter | Model (batching loop, transports), Elastic | core/exporter, transports |
| Json | Escape, Encoder, Reader (independent JSON reader) | core/exporter/encoders/json.go, easyjson's writer |
| Ecs | Encoder, Fields, Parts, Identity, Text (encoding/json), TextDoc | core/exporter/encoders/ecs.go |
| Config | Model, Exporter | configuration of engine, flattener, exporter, Kafka driver; vault |
| Pipeline | Cache, Config, Stages, EngineStage, Drain, Drivers, Socket, Avro, TraceDir, Process (driver and stages together), Main, Stop | driver/pipeline, driver/driver, driver/main.go, driver/sysflow, driver/otel |
| Shared | Scratch, Tags | memory shared by stages that run side by side: scratch buffers of core/exporter/encoders/ecs.go and core/flattener/filter.go, slices of tags |
| Whole | Program, Ecs (FileRun, Crash, Dedup: theorems on runs, crash points, duplicate filter) | all of the above composed: reader+flattener (with or without duplicate filter) → policy engine → JSON or ECS file exporter, or ECS to Elastic, under every schedule |

## 3 Findings about the code

Behaviour of the code that contradicts what a user would expect, found while modelling. Those marked † are proved as theorems or examples.

*Policies, Falco.* † Severity `alert` maps to Low. † The list `[]` has one empty item (so `pmatch` against it always holds); a trailing comma adds an empty
item; quoted items with commas are split. † Items of `in ([..])` are ignored. `append` of a macro is ignored. † Cyclic macros or lists never
terminate. † Keywords and severity words (any case) are reserved and cannot be values without quotes. `a:b` without a space is one token, so `desc:foo` breaks
and `tags:[a]` is one word; NUMBER is never produced (ID wins ties); a description containing a keyword such as `output` is rejected. † A
declaration after a rule that ends with an `output:` text is swallowed by that text or makes the file rejected. An empty file is rejected.
*Policies, Sigma.* † `re` and `base64offset` are ignored, `base64Offset` and `cidr` panic, a list of maps is a conjunction; aggregation is ignored; `1 of ident` and
unknown nodes are false; wildcards are literal; chained transformers are alternatives.
*Policies, fields.* † `exists` on a base-name field is always true. † `sf.pproc.uid`/`gid` compare as 0. † Literals with `[` are truncated and `field[` panics. `sf.pproc.tty`
is "0" without parent, "true"/"false" with. † Falco's `evt.rawres`, `proc.createtime`, `proc.tty` read something else than their names say.
*Policies, OTel.* † Panics: record without resource, attribute without value, empty array with startswith/endswith; Booleans only know the spelling `False`; a foreign
`sf-processor` scope can get a second rules attribute or make enrichment panic; tags repeat.
*Engine and monitor.* † With two workers and two outputs the outputs can differ in order. † The monitor misses `.yml` files and combined events; † a full
queue discards the newest policies. A final engine's workers may still run when `Wait` returns.
*Reader, flattener.* † Process trees are stale after an exec. † Cyclic parents make the reader hang. † The duplicate filter's key has no separator between exe and arguments and
ignores container, source port and new path. † All flatteners share one scratch buffer: with two filtering readers an event that is no duplicate can be dropped. † Pod addresses are joined without separator. The SysFlow processor drops Kubernetes events unless entity mode is on;
an entity-mode file without container panics.
*JSON.* † No ancestor list → malformed text; † two or more pod addresses or services → malformed text; † nil pod lists panic (not reachable from the flattener:
`alert_line`); unknown parent gives two quote characters; tty is `==1` here, `!=0` in rules.
*ECS.* † Severity is never below Low. † Node and container are not delimited in the document id. The nil check on services is always true; unknown event types with rules
write to a nil map; † all ECS encoders share one scratch buffer, so two ECS exporters can give wrong or colliding document ids; `IsAlert` is never set, so the kind is always "event".
*Exporter.* † One failing record fails its whole batch (JSON); † syslog stops at the first failing message; † a failed newline write is ignored by the file transport;
Kafka is flushed only in `Cleanup`, † after which `Wait` may already have returned; † every exporter configuration needs Kafka settings, whatever its transport;
the Elastic transport leaves its bulk indexer open on failure.
*Pipeline and drivers.* † A short channel reference panics; † the type of a later reference to a channel is ignored; † a stage without processor silently ends loading; a stage whose
`in` is neither string nor array makes `Wait` hang; † a stage's own `cluster.id` is overwritten; † mixed-case keys cannot be set from the environment; † an
environment entry without `=` panics; † two stages with one output channel panic at shutdown. † OpenTelemetry: engines side by side note their rules in the same record. † File drivers return on an error without closing the channel;
† the OTel file driver overwrites records of earlier files; † the streaming driver forwards undecodable messages; † the Kafka driver never waits for the pipeline;
† the Kafka driver's configuration panics on a topic that is not text. † A signal that arrives before the
last driver is started is lost, and all later ones are ignored; † of two file exporters with one path, what the first writes after the second starts is lost, and so is the log of an earlier run; † an old log that cannot be removed is silently appended to; † a socket driver waiting for a connection is not ended by a stop request.

## 4 What is modelled, what is not

*Abstract parameters* (theorems hold for every choice, or for every choice meeting a stated, satisfiable condition): `strings.ToLower`/`EqualFold`, `path.Match`, regular expressions of policies,
floating-point comparison, xxhash, `json.Marshal` of services, RFC3339 rendering, `sfgo` name functions (record types, operation and open flags; plain text
without control characters), `time.ParseDuration`, the vault, file system results, Kafka/Elastic/syslog client results, actions and dynamic plugins.
*Assumptions about dependencies:* sfgo attribute indices are distinct (with the SIP/OPENFLAGS alias as a parameter); numbers of record types, operation bits and Kubernetes actions are
distinct; protobuf never yields nil list elements; record pointers in the reader are non-nil; easyjson's `Writer.String` is as modelled in `Json/Escape`
(read from its source as text); `json.Unmarshal` reuses slices as documented; `ReadMsgUnix` on a unixpacket socket copies one packet to the front of the buffer, cutting it off with MSG_TRUNC if it does not fit; `vm.Eval` reads a record back from its Avro encoding whatever follows it.
*ANTLR:* the lexer is modelled (longest match, first rule wins) with the recursive, non-greedy STRING rule as a parameter with stated properties
(`StrRule`); the rule of the generated lexer, modelled in `Falco/StringRule` by the runtime's algorithm (not in /repo) on the serialised automaton, meets them (C94); the grammar is modelled as derivations and a recursive-descent parser proved equivalent to them. That the generated parser implements the grammar, with
`text` greedy, is trusted; error recovery is not modelled (a policy with a syntax error is rejected). Validation (not proof): the model's lexer and parser were
evaluated on all shipped policies in resources/policies except filter.yaml and falco.yaml (too slow in the interpreter); all were accepted.
*Sigma:* the sigma-go parser is not modelled; the model starts from its AST.
*ECS:* the document is modelled as a tree and as the text encoding/json makes of it (`Ecs/Text`); encoding/json is given its documented behaviour.
*Simplifications:* counters are unbounded naturals, clocks unbounded integers; closing all outputs of a stage is one step; a pipeline is a tree of stages with one input each;
one universal record type per pipeline (`Msg` in `Whole`); the driver sends nothing after closing the root channel (proved of the file and streaming drivers); viper's parsing
of the configuration file and Kafka keys beginning `{topic}.` are not modelled.
*Not modelled:* profiling flags of main beyond their effect on the exit status, logging, multi-driver loading of dynamic plugins, memory
below the level of channels (except the shared buffers and slices of C113).

## 5 How the theorems were tested

Besides the hand-made edits, a generator applied single mutations (boundaries, negations, dropped updates, swapped branches, changed constants) to the model's
definitions, rebuilt the project and looked at what failed. Every survivor was inspected; it was either an equivalent program or led to a tightened
theorem. All are in `seeded/LOG.jsonl`.

## 6 Plan and result per property

| id | property | status | how it is proved | theorems in |
|---|---|---|---|---|
| C01 | Criteria combinators are Boolean logic | proved | criteria as predicates, the loops of All/Any; induction on the list | Policy.Props |
| C02 | Disposition of a record by the interpreter | proved | the worker body on a mutable record; equation with a filter of the rule list; induction on rules | Engine.Props |
| C03 | Rules attached to a record are exactly the rules that fire, in policy order | proved | same; induction on rules, with a stability condition on actions | Engine.Props, FlatRecord.Resolve |
| C04 | Actions run exactly for firing rules, in order, and failures do not stop processing | proved | actions with a call trace; induction on rules and actions | Engine.Props, Engine.Warnings |
| C05 | Worker pool processes every accepted record exactly once | proved | pool as a transition system; multiset invariant accepted = queued + in flight + done over all executions | Engine.PoolProps |
| C06 | With one worker the engine preserves record order | proved | invariant for one worker | Engine.PoolProps |
| C07 | Worker pool makes progress / shutdown terminates | proved | no reachable state is stuck; decreasing measure | Engine.PoolProps |
| C08 | Policy hot-swap is atomic per record and ordered | proved | Process and pool as one transition system; invariant with a history of policy epochs | Engine.SwapProps |
| C09 | Policy refresh is checked at most once per interval and takes the oldest pending set | proved | same, history of refresh checks | Engine.SwapProps |
| C10 | A policy update that fails to compile never displaces the running policies | proved | monitor as a state machine; induction on histories | Monitor.Props |
| C11 | Policy change detection | partial | checksum map against the set of changed files; induction | Monitor.Props |
| C12 | Bypass and fan-out | partial | case analysis of Init; per-output histories | Config.Props, Engine.PoolProps, Engine.SwapProps |
| C13 | String comparison over multi-valued attributes | proved | split as specified pieces; list lemmas | FlatRecord.Props |
| C14 | Operator semantics | proved | list lemmas against prefix/suffix/infix relations | FlatRecord.Props |
| C15 | FoldAny and FoldAll | proved | induction on values | FlatRecord.Props |
| C16 | Existence | proved | case analysis over the mapper table | FlatRecord.Props, FlatRecord.Resolve |
| C17 | Attribute resolution | partial | resolution against the field table; table facts by kernel evaluation | FlatRecord.Resolve, FlatRecord.TableFacts |
| C18 | Prefilter soundness | proved | membership of the type text; lifted to the engine | Engine.Props, FlatRecord.Resolve |
| C19 | Record getters by source | proved | case analysis | FlatRecord.Resolve |
| C20 | Ancestor attributes | proved | induction on the ancestor list | FlatRecord.Resolve |
| C21 | Record context accumulates | proved | induction on the history of context calls | FlatRecord.Resolve |
| C22 | Falco condition semantics | proved | visitor model refined to a value relation on parse trees; mutual induction | Falco.Props |
| C23 | Falco macro and list definitions terminate when acyclic | proved | termination iff acyclic: well-founded rank and divergence along a cycle | Falco.Props |
| C24 | Falco list expansion | proved | induction on list definitions | Falco.Props |
| C25 | Falco 'in' and 'pmatch' | proved | list lemmas | Falco.Props |
| C26 | Falco rule attributes | proved | case analysis and induction on declarations | Falco.Props |
| C27 | Sigma condition semantics | proved | structural induction on search expressions | Sigma.Examples, Sigma.Props |
| C28 | Sigma event matchers and modifiers | proved | induction on matchers and modifiers | Sigma.Props |
| C29 | Sigma value transformers | proved | transformers as sets; base64 codec round trip | Sigma.Props |
| C30 | Sigma rule attributes | proved | case analysis | Sigma.Props |
| C31 | OTel attribute comparison | proved | attribute walk; induction | Otel.Props |
| C32 | OTel enrichment only adds | proved | induction on histories of AddRule calls | Otel.Enrich, Otel.Examples |
| C33 | Duplicate suppression window | proved | filter refined to "last emission time" over all histories of calls and clocks | Flattener.FilterProps |
| C34 | Duplicate filter memory is bounded by the window | proved | invariant of the filter map and queue | Flattener.FilterProps |
| C35 | Semantic key ignores time and depends only on the flow identity | proved | byte encoding of the identity | Flattener.FilterProps |
| C36 | Entity tables behave as latest-write maps since the last header | proved | tables refined to latest write in the history | Cache.Props |
| C37 | Process lookup prefers modified over created over re-up | proved | same, with precedence | Cache.Props |
| C38 | Process provenance | proved | fuelled walk; terminates iff the parent chain is finite | Cache.Props |
| C39 | Reader forwards each event once, in order, with its context | proved | reader refined to the stream by induction | Processor.Props |
| C40 | Flattener delivery | proved | induction on handler calls | Flattener.Props |
| C41 | Flattening preserves attributes | proved | case analysis of the assignments | Flattener.Props |
| C42 | Exporter batching loses and reorders nothing | proved | exporter loop; invariant by induction on events | Exporter.Props |
| C43 | Export failure isolation | proved | same, encoder and transport arbitrary | Exporter.Props |
| C44 | File transport framing | proved | file writes as appended bytes; inverse function linesOf | Exporter.Props |
| C45 | JSON string escaping round-trips | proved | writer against an independent JSON reader; induction on bytes | Json.EscapeProps |
| C46 | JSON record framing | partial | framing writer against the reader; exact conditions for well-formedness and for panics | Json.Malformed, Json.Props |
| C47 | ECS alert annotation | proved | induction on rules | Ecs.Props |
| C48 | ECS event classification | proved | bit tests; case analysis over operations | Ecs.Props |
| C49 | ECS event times | proved | case analysis | Ecs.Props |
| C50 | Configuration parsing is total with documented defaults | proved | case analysis over maps | Config.Props, Whole.BootProps |
| C51 | Environment overrides | proved | induction on the environment | Pipeline.ConfigProps |
| C52 | Pipeline wiring | proved | channel cache as a map; induction on stages | Pipeline.CacheProps |
| C53 | Pipeline drains on shutdown | proved | network of stages meeting a contract; invariants, deadlock freedom and a lexicographic measure; contracts for each real stage; induction on the tree | Pipeline.DrainProps, Pipeline.EndToEnd, Pipeline.EngineStage, Pipeline.Stages |
| C54 | File driver delivers records in file order | partial | driver loops; induction on files and records | Pipeline.DriverProps |
| C55 | Plugin registries | proved | registries as maps | Pipeline.CacheProps |
| C56 | The latest policies are eventually adopted | partial | bounded queue invariant | Monitor.Props |
| C57 | Falco field names are aliases | partial | kernel evaluation of the table | FlatRecord.Resolve |
| C58 | Exported values are the values rules see | proved | JSON field values against mapper values; case analysis | Json.Agree |
| C59 | One exported record is one line | proved | no control characters; induction on the writer | Json.Agree, Json.Examples |
| C60 | ECS document identifiers | proved | identity bytes; injectivity of the delimited part | Ecs.Identity |
| C61 | ECS documents show the record | proved | document tree against a specification | Ecs.Props |
| C62 | Global configuration items | proved | induction on configuration entries | Pipeline.ConfigProps |
| C63 | Pipeline loading stops at the first unusable stage | proved | induction on stages | Pipeline.CacheProps |
| C64 | Driver selection | proved | case analysis | Pipeline.CacheProps |
| C65 | Streaming driver delivers messages in order | proved | driver loop; induction | Pipeline.DriverProps |
| C66 | Kafka driver delivers messages in order | proved | driver loop; induction | Pipeline.DriverProps |
| C67 | A Falco condition has one reading | proved | grammar as derivations, parser proved sound, complete and unambiguous | Falco.CondText, Falco.ParserProps, Falco.Vocabulary |
| C68 | Falco texts are divided into words faithfully | proved | lexer as longest match over regular expressions; correctness by induction | Falco.Layout, Falco.LexerProps, Falco.Vocabulary, Falco.Words |
| C69 | A Falco policy file is read as its declarations | proved | grammar of declarations; parser equivalence | Falco.PolicyProps, Falco.Vocabulary |
| C70 | Policy files to alerts | proved | composition | Falco.EndToEnd |
| C71 | From the stream to the fields | proved | composition; table over the stream | Flattener.Stream |
| C72 | From the stream and the policy files to alerts | proved | composition | Falco.StreamAlerts |
| C73 | Exporter settings and credentials come from the right place | proved | case analysis; permutation invariance of map iteration | Config.ExporterProps |
| C74 | OTel Kafka driver subscribes to exactly the configured topics | proved | same | Config.ExporterProps |
| C75 | Elastic transport: complete bulks, no duplicate documents | proved | loop over an oracle; induction; index as a map | Exporter.Elastic |
| C76 | Whole program: the log holds exactly one line per event the policies let pass | proved | composition of the reader, engine and exporter contracts in the network model | Whole.Corollaries, Whole.Props |
| C77 | Exit status of the program and which drivers it starts | proved | case analysis; induction on drivers | Pipeline.Main |
| C78 | A run on files or a socket returns with a complete log | proved | composition of driver traces with the network model; well-founded measure | Pipeline.Process, Whole.FileRun |
| C79 | The log at every moment of a run | proved | monotonicity of the log and completion of every partial run | Whole.Crash |
| C80 | Stop requests | proved | invariant over histories of events; rank of the driver location under every schedule | Pipeline.Stop |
| C81 | ECS documents as text | proved | mutual induction on document values; reading back with the JSON reader of C45; the encoder's maps have no repeated names | Ecs.TextDoc, Ecs.TextProps |
| C82 | The whole program with ECS output, to a file or to Elastic | proved | as C76, through lemmas for any encoder and transport (alerts_delivered, log_complete); the encoder's panics are excluded by the records the flattener makes | Whole.Ecs |
| C83 | The whole program with the duplicate filter | proved | the flattener's deliveries (C33, C40) do not depend on what it sent before; calls of the reader match events one to one; then as C76 | Whole.Dedup |
| C84 | OpenTelemetry: from policy files to alerts | proved | C31 (operations mean what they should on records without holes), C32 (attaching), C22-C26, C67-C69 (compiler), C01-C05 (engine); a structural induction shows that a compiled condition reads only attributes its text names | Otel.Policy |
| C85 | OpenTelemetry: the whole program | proved | as C76, with two stages; C84 gives the engine step; for every moment: any run can be continued to one where Wait returns, and what was produced only grows | Whole.Otel, Whole.OtelRuns |
| C86 | Enrich mode without policies: the whole program passes everything on | proved | as C76, with a policy engine that has no workers: every stage is deterministic, so the order is that of the stream | Config.Props, Whole.Bypass |
| C87 | Sigma search-name patterns | proved | a direct model of path.Match (chunks, classes, escapes); spec by a grammar of patterns and a matching relation; completeness by leftmost-occurrence exchange | Sigma.Alerts, Sigma.Glob |
| C88 | From Sigma rule files to alerts | proved | composition of compilation (C27-C30, C87) with the engine (C02-C05) | Sigma.Alerts |
| C89 | The whole program with Sigma policies | proved | as C76, with the engine step of C88; the pipeline part is shared with the Falco theorem | Whole.Sigma |
| C90 | Exactly which streams the reader survives | proved | the ancestry walk ends within as many steps as there are known processes unless it revisits one (pigeonhole); the recursion bound of the model is proved irrelevant (run_same) | Processor.Returns, Whole.Sane |
| C91 | Channel names in the configuration are the wiring | proved | the network is computed from the stages that the model of Load returns; name equality is channel identity by the invariant of the channel cache (C63); the tree theorems of C53 then apply | Pipeline.Wired |
| C92 | From the configuration to the running program | proved | the model of Load is run symbolically on the three stages with the registrations of the plugins; the network it starts is shown equal to the one of C76/C82/C86, whose theorems apply | Whole.BootProps, Whole.BootRuns, Whole.Shipped |
| C93 | From the policy directory to the log | proved | the directory listing, reading and compiling of Init and of the local monitor are modelled as a function of the directory; its results are shown to be exactly the well-formed acyclic policy sets (C65, C66), and C92 applies to the world in which the policies are these | Whole.Directory |
| C94 | String literals of the rule language | proved | the configurations of the lexer automaton in STRING and STRLIT are modelled with their stack of closing quotes; soundness and completeness by an acceptance relation on configurations, exact lengths by invariants of the ordered list of configurations | Falco.StringRule |
| C95 | Health checks | proved | the checking goroutine, the one-place channel, the timer and the select are a labelled transition system with time; invariants over all executions, a measure for the bound | Pipeline.Health |
| C96 | Channel types | proved | an invariant of the loading loop relates the channel cache to the list of references read so far; the registries that can occur without plugins are two closed terms; executions of the process for the programs that never end | Pipeline.CacheProps, Pipeline.Typing, Whole.Typing |
| C97 | ECS documents tell alerts from other events | partial | `Whole/Marks`: the alert mark and the tags of a record are followed through the policy engine (`Unmarked` in the description of every line and document) into the text of the ECS document, read back as JSON; the kind is `event` in all of them, so the claim about it is refuted on the whole program. | Whole.Marks |
| C98 | From the OpenTelemetry configuration to the messages | proved | `Whole/OtelBoot`: loading the two stages is computed symbolically, the loaded network is shown equal to the one of C85/C86 with the configured settings, and the theorems on its runs are applied; the shipped configuration is evaluated through the specification of the exporter's settings (C73) for any build and environment. | Whole.OtelBoot |
| C99 | The policy monitor settles on the policies of the directory | proved | `Monitor/Live`: a state machine with one step per file operation, so that the directory may change between any two. `LiveInv`: an inductive invariant relates what is remembered (checksums) and what the latest run of the compiler read to the present directory through an `age` of contents; `LiveProps`: with no event waiting the two are squeezed together; a measure bounds the steps. `LiveExamples`: concrete runs, among them those showing that each condition is needed. Not modelled: events lost or merged by the kernel or fsnotify (the condition Reported), errors of listing. | Monitor.Edit, Monitor.LiveExamples, Monitor.LiveProps |
| C100 | From the policy directory to the policies in force | proved | `Monitor/Joint`: the synchronous product of the monitor's machine (C99) and the policy engine's (C08) over the shared channel; both projections are runs of the component machines (`both_run`), nothing a component can do alone is lost (`none_held_back`), so the theorems of C08, C09 and C99 apply and are combined by induction over the engine's steps. | Monitor.Joint |
| C101 | The configuration in effect is that of the file named on the command line | partial | `Pipeline/ConfFile`: `GetConfig`'s choice of the file with viper's search (its list of extensions is a parameter that begins with `json`), `LoadDrivers`, and the whole of `Load` as a relation; the decoder is a parameter. Composed with C51, C55, C62, C63 and C64. | Pipeline.ConfFile |
| C102 | From a directory of Sigma rules to the log | proved | `Whole/SigmaDirectory`: the choice of the rule files and the configuration as in C93, the Sigma compiler of C27-C30, composed with the boot theorem of C92 and the run theorem of C89 (whose hypotheses are now only that the policies compiled). | Whole.SigmaDirectory |
| C103 | Policies reloaded in the running program: directory to log | proved | `Pipeline/Reload`: the product of the pipeline of C81/C83 and the monitor of C99, synchronised on the pushes and takes of the policy channel; each of the two projections is a run of its own model (`run_net`, `run_joint`), so C83 (log complete, here along the sequence of the policies adopted), C99 and C100 (what is adopted was compiled from the directory) apply; `can_finish` lifts the termination of the pipeline. `Whole/Reload` composes with the boot theorem of C92/C93. Pipeline/Adopt.lean, Monitor/Edit.lean, Whole/ReloadEffect.lean: the positive side — from any state in which an update waits there is an execution that takes it, and every edited policy file that parses yields a run of the monitor, channel and engine after which the engine holds the edited policies. | Pipeline.Adopt, Pipeline.Reload, Whole.Reload, Whole.ReloadEffect |
| C104 | From the configuration to the terminal or to syslog | proved | Exporter/Syslog.lean computes, for every sequence of exporter inputs ending with a close, what the syslog transport has sent (induction over the batches, failed sends stop a batch). Whole/Messages.lean generalises the delivery theorem of C92 to every transport of data and instantiates it with the terminal and syslog, JSON and ECS, from the loaded configuration. | Exporter.Syslog, Whole.Messages |
| C105 | Several policy engines and exporters | proved | Whole/Tree.lean: a loaded configuration whose names form a tree is a tree network (C91); each stage is identified by its processor name and initialised configuration (induction over the loader); the flow along the tree edges (drained network) connects the reader's emitted records with the engine's inputs and the engine's k-th output with the exporter; `engine_delivers_outputs` gives one division into segments valid for all outputs. | Pipeline.EndToEnd, Whole.Tree |
| C106 | A log file or an Elastic cluster that fails at times | proved | Exporter/FileFailures.lean, Exporter/ElasticFailures.lean: induction over the data of a batch and over the batches, counting failures; the batches are the records received (C42). Whole/Failures.lean: composed with the whole program as in C104. Whole/Tree.lean: the same for each exporter of a tree of stages (C105). | Exporter.ElasticFailures, Exporter.FileFailures, Whole.Failures |
| C107 | Sigma rules reloaded in the running program: directory to log | proved | Whole/SigmaReload.lean: the reload theorems of C103 hold for any compiler (reload_with, settled_with in Whole/Reload.lean); instantiated with the Sigma compiler on the files read and with C95's directory of rules. Whole/SigmaEffect.lean: the run in which an edited rule file is adopted exists (see C103). | Whole.SigmaEffect, Whole.SigmaReload |
| C108 | The build for OpenTelemetry logs: policy directory to messages, with reloads | proved | Whole/OtelReload.lean: the generic joint run of pipeline and monitor (C103, Pipeline/Reload.lean) with the two-stage net of C85; policies of the directory by the generic Directory.lean (any field operations). Whole/OtelEffect.lean: the run in which an edited policy file is adopted exists (see C103). | Whole.OtelEffect, Whole.OtelReload |
| C109 | Benchmark settings | proved | Engine/Bench.lean: the cut of the rule list in Compile, composed with the configuration (C50) and the worker (C01, C02). | Engine.Bench |
| C110 | Paths of links come apart into target and link | proved | FlatRecord/SymPath.lean: Sscanf as a small scanner, proved equivalent to a grammar (Form); FlatRecord/Paths.lean: the round trip with %x. | FlatRecord.Paths, FlatRecord.SymPath |
| C111 | Path, directory and name of a file fit together | proved | FlatRecord/Paths.lean: model of filepath.Clean as a fold over the elements; the fields are read through the exporter's mappers (mapAttr). | FlatRecord.Paths |
| C112 | Process identifiers identify processes | proved | FlatRecord/Paths.lean: numbers of a fixed number of digits make the concatenation injective (format_length). | FlatRecord.Paths |
| C113 | Stages that run side by side compute what they would compute alone | partial | Shared/Scratch.lean: goroutines with private hash states and one shared buffer, all interleavings; an invariant ties each goroutine to its calls as long as the history is undisturbed; a schedule is constructed for the negations. Shared/Tags.lean: slices with capacity over a shared array, element by element; all exporters write the same elements to the same places. | Shared.ScratchProps, Shared.Tags |
| C114 | OpenTelemetry: any number of policy engines in a row | proved | Otel/Series.lean: an engine on a record in which others have noted rules. Whole/OtelSeries.lean: the chain of engines in the network model; induction along the engines, with the relation between records as delivered and as they are. Whole/OtelRow.lean: loading a row, by induction over the engines; runs of the file driver. Whole/OtelRowMoment.lean: at every moment, by completing the run (every run can be completed, and what has come out only grows). | Otel.Series, Whole.OtelRow, Whole.OtelRowMoment, Whole.OtelSeries |
| C115 | OpenTelemetry: policy engines side by side share the record | partial | Whole/OtelBranches.lean: one shared record, histories of engine and exporter steps; invariant: the rules noted are those of the engines that have worked, in their order. | Whole.OtelBranches |
| C116 | The plugins shipped with the processor | proved | Plugins/Examples.lean: the printer in the reader's loop, by induction over the stream with C05's description of the handler calls; the example processor by what the flattener stores (C71); the action by the engine's list of effects (C03, C04), with the clock as part of the record's state. | Plugins.Examples |
| C117 | From the packets of a socket to records | proved | Pipeline/Socket.lean: the buffer after any packets, described byte by byte, by induction over the packets; with it the records sent, and C40's account of the driver. Pipeline/Avro.lean: the Avro binary encoding and a decoder, proved inverse for every schema by induction over it. Whole/SocketRun.lean: the whole program of C76 with this driver. | Pipeline.Socket, Whole.SocketRun |
| C118 | A path to trace files | proved | Pipeline/TraceDir.lean: the listing is the one arrangement of the names sorted in the alphabetical order (a total order, shown to be the one the specification describes); decimal renderings of the same length are in alphabetical order exactly as the numbers; with C54's account of the driver. Whole/TraceRun.lean: the whole program of C76 with this driver. | Pipeline.TraceDir, Whole.TraceRun |
| C119 | The published list of fields | proved | FlatRecord/FieldList.lean: the comparison is shown to be the order of the specification, a total order; the sort of such a list is unique. | FlatRecord.FieldList |
| C120 | The set of strings of the exporter's helpers | proved | Exporter/NameSet.lean: induction over the history of operations. | Exporter.NameSet |
| C121 | OpenTelemetry: conditions on what has been noted | proved | Otel/ReadBack.lean: the attributes of a record with rules noted are those of the record followed by two arrays of texts; array comparison on those; the engine theorem of C114 with filters evaluated on the noted record. | Otel.ReadBack, Whole.OtelSeries |
| C122 | Policies reloaded while ECS documents go to Elastic, or messages to terminal, syslog or a failing file | proved | Whole/EcsReload.lean, Whole/OutReload.lean: `reload_delivered` (any encoder and transport) reduces a run of pipeline and monitor to the stretches of C103 and what the exporter received; the exporter theorems of C73, C82 and C86 turn this into bulks, lines and buffers. | Whole.EcsReload, Whole.OutReload |
| C123 | Sigma rules with every output, with and without reload | proved | Whole/SigmaOut.lean: the verdict of a Sigma policy in place of a Falco one in the generic theorems of Whole/Ecs, Whole/EcsReload and Whole/OutReload (`elastic_of_alerts_as`, `reload_out`, `reload_result_as`), which are stated for any verdict; the verdict itself is that of C104/C107. | Whole.SigmaOut |
| C124 | OpenTelemetry: engines evaluate conditions on a shared record at the same time | proved | Shared/Gather.lean, Shared/GatherProps.lean: a machine of slices and arrays; invariant: the part of the array that each evaluation relies on, or will still read, agrees with the record's list of attributes, which only grows at its end (`note_adds`); every write to the shared array is of the element that belongs there. `add_rules_notes` relates the steps to `AddRules` of C32. | Shared.Gather, Shared.GatherProps |
| C125 | OpenTelemetry: engines note their rules in a shared record at the same time | proved | Shared/Noting.lean, Shared/NotingProps.lean: `AddRules` and what it calls, step by step, on slices with arrays, any number of calls interleaved. Invariants: an element is nowhere until the call that has made it begins to append it, and then only at one position of one slice; a listed element that every append under way leaves in place stays (`Safe`); a call that is alone knows that its scope and attributes are listed (`Knows`). Findings by executions. Shared/NotingTurns.lean: a call that is alone is executed step by step, from which the exact contents of all slices after any number of calls one after the other follow, and so the relation `Noted` of C84: the interleaved account and the sequential one agree. An execution with two calls at the same time that no order of the calls explains. | Shared.NotingProps, Shared.NotingTurns |
| C126 | Stopped at any moment: every pipeline and destination | proved | Whole/Moments.lean: every moment of a run continues, without another record, to one where `Wait` returns, and each stage to a later state of its own (`completes_all`); what a transport has put out only grows with its steps (`exporter_later`); at the end the theorems for complete runs apply (`tree_drained`, C83, C77, C89, C86). | Whole.Moments |
| C127 | Elastic: started over after a crash | proved | Whole/Restart.lean: the identifying attributes are read from what the record stores, which is determined by the records before the event but for the ancestors, which are not among them (`idBytes_stores`); what is requested up to any moment is the beginning of what a complete run of the records sent so far requests (C126's method), so documents of logged events; induction over the stops; then C82 for the last run. | Whole.Restart |
| C128 | Output at every moment, while policies change | proved | Pipeline/ReloadMoment.lean: from every moment there is a continuation, with no further records and no further changes of the directory, in which `Wait` returns (`completes_beside`, by C96's schedule); stages only move on (`Later`), so the exporter's output only grows, and C122/C123 hold at its end. | Whole.ReloadMoments, Whole.ReloadMomentsConf |
| C129 | OpenTelemetry: output at every moment, while policies change | proved | Whole/OtelReloadMoment.lean: as C128, with `Reload.completes_beside` and C108's statement about completed runs. | Whole.OtelReloadMoment |
| C130 | OpenTelemetry: refused messages, failing writes, the terminal | proved | Exporter/Partly.lean: the transport is called on batches whose data are, together, the encodings of the records received (`some_batches`); induction over the batches gives `Accepted` for Kafka, and C106's `KeptOf` for the file, also when some records cannot be encoded. Whole/OtelFailures.lean: a destination that `Does` something with the messages does it at the end of every run, at every moment, and beside reloads (C85, C108, C129); then from the configuration by C98. | Exporter.Partly, Whole.OtelFailures |
| C131 | OpenTelemetry: a row of engines with failures | proved | Whole/OtelRowFailures.lean: the run of a row (C114's `series_run`, by induction over the engines) ends at the destination, which `Does` what C130 says; every execution of the row can be completed (`row_completes`) and what a destination has done only grows, which gives the statement for every moment, with any driver; then from the configuration by C114. | Whole.OtelRowFailures |
| C132 | Elastic: started again with other policies | proved | Whole/Restarts.lean: an execution stopped anywhere continues to one in which `Wait` returns and requests at least the same documents (C126); these are those of events wanted by policies in force (C82); the identifier is a function of attributes that the records determine (`idBytes_stores`); induction over the starts, then C82's statement about complete runs. | Whole.Restarts |
| C133 | What is under a log file's path | proved | Exporter/LogFile.lean: directory entries, files and open files; induction over the history with the invariant that a path's file is open only under that path; a file opened after its path was removed is a new one, known to this exporter alone; a removed file has no path and never gets one (simulation of the history with and without the writes to it). | Exporter.LogFile |

For the partial ones the full statement is in `properties.jsonl`; what fails in the code is proved as a separate theorem named in `MANIFEST.json`:

* **C11** Exact for .yaml files and pure write events; the code misses .yml files and combined events (negations proved).
* **C12** All channels receive the same multiset of records; the same order only with one worker: with two workers and two channels the orders can differ (witness proved).
* **C17** Proved for fields and for literals without an opening bracket; a literal with one is truncated and field+"[" panics (both proved), and sf.pproc.uid/gid read 0 as integers (proved).
* **C46** The full claim is false of the code. json_record_partial: for records with a known ancestor chain and at most one address/service per pod the text reads back as exactly the specified document. json_wellformed_iff and json_panic_iff describe all other records: the text is not JSON, or the encoder panics.
* **C54** Proved for the SysFlow file driver; for the OTel file driver only for a single file, because the property is false for several files (records of earlier files are overwritten: proved witness), and on errors the channel is not closed (proved).
* **C56** Holds when the queue has room at the last compile; a full queue discards the latest set (witness proved).
* **C57** 52 names are exact aliases; evt.rawres, proc.createtime and proc.tty read something else (proved); evt.dir is a constant.
* **C97** Proved: reason, severity and tags exactly as the matching rules say, in every document of the whole program, unless actions set marks or tags. The claim about kind is false of the code: nothing calls SetAlert, so every document says `event` (proved for every run: ecs_log_never_says_alert; ecs_alert_not_marked is a run with a matching rule whose document says `event`).
* **C101** The full statement is false of the code: the extension of the file named is dropped and viper searches for the stem, so NAME.yaml reads NAME.json if there is one (sibling_json_is_read), a file with an unknown extension is never read (unknown_extension_not_read), and a path that exists but cannot be looked at crashes the program (reading_crashes_iff). For names ending in .json, the default, everything is proved.
* **C113** The code contradicts the full statement (package-level scratch buffers): the negations are proved. Writes of eight bytes and calls of hash.Write are taken as single steps.
* **C115** The code contradicts the full statement: the negation is proved for every schedule. Steps of engines and exporters are taken as atomic (C125 has the single reads and writes of noting); one record, one policy set per branch.
