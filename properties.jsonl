{"id": "C01", "title": "Byte streams are cut into exactly their lines, however the OS delivers them", "statement": "Whatever sizes the operating system chooses for the individual reads, the messages produced from a file, pipe or standard input are exactly the lines of the bytes: each message ends with its newline (LF or CR LF), only the last one may lack it, no message is empty, none contains a newline before its end, and their concatenation is the input.", "quantifier": "every byte sequence and every way of splitting it into non-empty reads", "why_tests_cant": "the number of chunkings of an input is exponential and the interesting ones put a read boundary inside a CR LF; a test picks a handful", "anchors": ["src/motion.rs: is_split, motion_read_buffer, motion_read, ReadSplitControl::new", "README.md: Messages are considered to be separated by Windows or UNIX line endings"]}
{"id": "C02", "title": "Framing never loses, duplicates or invents a byte, for any separator list and any read fault", "statement": "After any number of reads from a byte stream, the concatenation of the messages delivered so far followed by the bytes still held back equals the bytes taken from the stream so far, also when some reads failed in between, and for any list of separators.", "quantifier": "every separator list, every sequence of reads (data of any size, end of stream, I/O error) and every number of calls", "why_tests_cant": "must hold after every prefix of every history including faults", "anchors": ["src/motion.rs: motion_read_buffer, is_split"]}
{"id": "C03", "title": "End of stream and read errors are reported as such", "statement": "A byte stream is reported finished only when every byte before the end has been delivered, and stays finished; a failing read is reported as a read error naming the stream's journey and the lines before it have been delivered as complete lines.", "quantifier": "every stream content, chunking, and position of the failing read", "why_tests_cant": "position of the fault relative to line boundaries is unbounded", "anchors": ["src/motion.rs: motion_read, motion_read_buffer, MotionError::ReadIOError"]}
{"id": "C04", "title": "Separator lists: message boundaries depend only on the bytes", "statement": "For a configurable separator list the sequence of messages depends only on the bytes, not on how they were chunked. (True of every list of separators that are one or two bytes long, none a proper prefix of another; false of the implementation for longer separators.)", "quantifier": "every separator list, byte sequence and pair of chunkings", "why_tests_cant": "needs comparing all chunkings of all inputs", "anchors": ["src/motion.rs: motion_read_buffer (start_from), is_split"]}
{"id": "C05", "title": "A forwarded message reaches every output, once, unchanged, in the declared order", "statement": "When one message is taken from an input, the component offers exactly that message, once, to each of its outputs in order and to nothing else; if it reports failure, the outputs offered are an initial segment of the list and the last of them is the one that failed.", "quantifier": "every number of outputs, message, pipe variation of each output and outcome of each write", "why_tests_cant": "outcomes of n writes give 3^n behaviours for unbounded n", "anchors": ["src/motion.rs: motion_worker, motion_write"]}
{"id": "C06", "title": "Pipe variations T, F and C decide exactly what happens when a receiver is gone", "statement": "Forwarding a message fails with the output-closed error iff some output marked T is closed (reporting the first such); an output marked F or C being closed never fails the sender; the sender is told to stop after a message iff every one of its outputs is marked F and is closed; write errors other than 'closed' are reported under every variation.", "quantifier": "every list of outputs with any variations and any outcome of each write", "why_tests_cant": "combinatorial in the number of outputs; the interesting cases mix variations", "anchors": ["src/motion.rs: motion_worker", "src/connectable.rs: Breakable", "README.md: Pipe Variations"]}
{"id": "C07", "title": "A relay copies its whole input in order and then closes its output", "statement": "A complete, failure-free run of a single-input single-output relay writes exactly the messages it received, in order, then closes its output and its notifications, and reports the number of messages plus one as its read count; at every moment before that what it has written is a prefix of what it has received, lagging by at most one message.", "quantifier": "every input sequence, every interleaving of blocking and progress, every finite run prefix", "why_tests_cant": "runs are unbounded; must hold at every intermediate point", "anchors": ["src/motion.rs: motion"]}
{"id": "C08", "title": "Occupancy notifications are sent exactly once per message and once at the end", "statement": "A relay with a read (written) notification channel sends exactly one notification for each message read (offered to all outputs) plus one for the end of the input, read notifications before the message is offered onward, written notifications after.", "quantifier": "every run of a relay", "why_tests_cant": "must hold on every prefix of every run", "anchors": ["src/motion.rs: motion_worker, MotionNotifications"]}
{"id": "C09", "title": "Spies see exactly what crosses each labelled pipe", "statement": "With spying enabled, each message (and the end of input) produces, for each output that carries a port, exactly one spy record with that output's source, destination and port and the message, in output order; outputs without a port produce none.", "quantifier": "every list of outputs, every message and outcome not aborting the pass", "why_tests_cant": "all output lists", "anchors": ["src/motion.rs: motion_worker, SpyMessage"]}
{"id": "C10", "title": "A junction serves its inputs in numeric priority order, lower numbers first", "statement": "A junction forwards a message from an input only when, in the same pass, every input with a smaller priority number was found empty and still open; inputs of the smallest priority present at start are polled together, each at most once per pass.", "quantifier": "every set of inputs with any priorities, every availability pattern and every number of passes", "why_tests_cant": "availability patterns over time are unbounded", "anchors": ["src/junction.rs: initialize_stdin, iteration, junction_motion_worker"]}
{"id": "C11", "title": "A higher priority number is served first, as documented", "statement": "With inputs of priorities 5 and 1 on a junction, as in the README's high_priority/low_priority example, the input of priority 5 is served before the input of priority 1. (False of the implementation: the order is reversed.)", "quantifier": "every pair of inputs with different priorities", "why_tests_cant": "refuted by a proof rather than missed by the tests, which only use priorities 0 and 1 and never state which is higher", "anchors": ["README.md: Input Priorities", "src/junction.rs: initialize_stdin"]}
{"id": "C12", "title": "Inputs of equal priority are treated alike", "statement": "Inputs given the same priority are polled in the same pass, so none of them can be starved by another of the same priority. (True for the smallest priority present; false for every larger priority, where an earlier-connected input starves a later one.)", "quantifier": "every multiset of priorities", "why_tests_cant": "depends on three or more inputs with a repeated non-minimal priority; quantifies over all", "anchors": ["src/junction.rs: initialize_stdin (old_priority)"]}
{"id": "C13", "title": "A junction copies every input message to all outputs in one common order that respects each input's order", "statement": "At every point of a failure-free run the sequences offered to all outputs are identical, equal to the messages received over all inputs in order of receipt, and the part coming from one input is exactly what that input delivered, in its order.", "quantifier": "every number of inputs and outputs, priorities, availability pattern and run length", "why_tests_cant": "unbounded histories of unbounded fan-in and fan-out", "anchors": ["src/junction.rs: iteration, junction_motion_worker", "src/motion.rs: motion_worker"]}
{"id": "C14", "title": "A junction ends exactly when all its inputs have ended", "statement": "An input is dropped by a junction exactly when it has delivered its end (or every output is gone with variation F, or there are no outputs); no other input is dropped; the junction ends normally in the first pass after which no input is left, and then every output has been closed.", "quantifier": "every run", "why_tests_cant": "inputs end in any order at any pass; index-based removal must be right for every pattern", "anchors": ["src/junction.rs: iteration", "src/utils.rs: remove_vec_vec_index, remove_vec_vec"]}
{"id": "C15", "title": "When a junction fails, everything downstream of it is told", "statement": "When a junction stops because an output marked T is gone, all its other outputs are closed so that the components behind them can end. (False: the junction keeps the sending ends of its outputs, and a component behind another output waits for ever.)", "quantifier": "every failing run of a junction with several outputs", "why_tests_cant": "needs a concurrent history reaching the failure; absence of an event for ever cannot be observed by a test", "anchors": ["src/junction.rs: start (stdin.clear), Junction.stdout", "src/waiter.rs: Waiter::start"]}
{"id": "C16", "title": "A paused regulator lets at most one more message through", "statement": "After a pause request has been delivered and until the matching resume request is issued, the regulator forwards at most one further message.", "quantifier": "every input arrival pattern, every schedule of regulator and controller, every number of pause/resume cycles", "why_tests_cant": "schedules are unbounded", "anchors": ["src/regulator.rs: start_secret, control, RegulatorControl"]}
{"id": "C17", "title": "Pausing never loses or reorders messages", "statement": "Whatever the pattern of pause and resume requests, at every moment what a regulator (or faucet) has forwarded is a prefix of what it has received, lagging by at most one message, and when its input ends it has forwarded everything and reports the number of messages.", "quantifier": "every control history and every input", "why_tests_cant": "unbounded histories", "anchors": ["src/regulator.rs: start_secret", "src/faucet.rs: start_secret"]}
{"id": "C18", "title": "Pause and resume are idempotent and strictly alternate on the wire", "statement": "Calling pause twice or resume twice in a row has the effect of calling it once; the requests delivered to the regulator therefore strictly alternate pause, resume, pause, ... starting with pause; after the regulator has ended both calls return without error.", "quantifier": "every sequence of pause and resume calls", "why_tests_cant": "all call sequences", "anchors": ["src/regulator.rs: RegulatorControl::pause, resume", "src/faucet.rs: FaucetControl"]}
{"id": "C19", "title": "Flow control pauses at or above the high watermark and resumes at or below the low one", "statement": "The flow manager requests a pause only when the sum of the last sizes reported by the still-open monitored buffers is at least the high watermark, requests a resume only when that sum is at most the low watermark, and whenever it goes back to sleep it is not open with the sum at or above a high watermark larger than the low one, nor paused with the sum at or below the low watermark.", "quantifier": "every pair of watermarks, number of buffers, and sequence of size reports and closings", "why_tests_cant": "unbounded report histories", "anchors": ["src/waiter.rs: manage_regulator_from_buffers"]}
{"id": "C20", "title": "Flow control never leaves the regulator paused when it stops", "statement": "When all monitored buffers have ended, the flow manager stops and the regulator is not paused; the manager has made equally many pause and resume requests, alternating, starting with a pause.", "quantifier": "every history of size reports", "why_tests_cant": "unbounded histories", "anchors": ["src/waiter.rs: manage_regulator_from_buffers"]}
{"id": "C21", "title": "With properly ordered watermarks flow control does not flap", "statement": "If the low watermark is below the high one, the manager makes at most one request per look at the buffers and never a pause and a resume for the same total; for reversed or equal watermarks it may do both in one look, again and again (which the configuration file permits but the editing command prevents).", "quantifier": "every pair of watermarks and every history", "why_tests_cant": "all histories", "anchors": ["src/waiter.rs: manage_regulator_from_buffers, get_waiter", "src/config.rs: regulator_set_watermark"]}
{"id": "C22", "title": "A buffer accepts messages regardless of flow control", "statement": "Because a buffer has infinite capacity, the component feeding it is never blocked indefinitely, whatever the regulator that monitors it is doing. (False: while the regulator waits for input with an unread pause request, a resume request blocks the manager, the size reports fill up, and the buffer stops accepting after finitely many messages.)", "quantifier": "every schedule of buffer, manager, regulator and their environment", "why_tests_cant": "a deadlock reachable only through a particular interleaving of four tasks", "anchors": ["src/buffer.rs: start, total_in_buffer", "src/waiter.rs: manage_regulator_from_buffers", "src/regulator.rs: start_secret"]}
{"id": "C23", "title": "A buffer delivers everything it accepted, in order", "statement": "At every moment what a buffer has passed on followed by what it holds is what it has accepted; when its input ends and its output keeps accepting, it has passed on everything and closes its output.", "quantifier": "every interleaving of the buffer's two halves, any arrival pattern, any stalls of the receiver", "why_tests_cant": "interleavings are unbounded", "anchors": ["src/buffer.rs: start"]}
{"id": "C24", "title": "A buffer's size count never goes below zero", "statement": "The size a buffer keeps and reports never underflows: under the order in which the buffer's three activities are polled, every size computed is a true non-negative number and equals, when all notifications have been handled, the number of messages (and end marker) accepted minus passed on.", "quantifier": "every poll history: any amount of progress of each activity per poll, any blocking on any channel, any notification capacities with the outgoing not larger than the incoming", "why_tests_cant": "depends on poll order and full channels; unreachable by deterministic tests", "anchors": ["src/buffer.rs: start, total_in_buffer"]}
{"id": "C25", "title": "A buffer's size count is right under every interleaving", "statement": "The size a buffer keeps never underflows whichever way its activities interleave. (False in general: if the activities ran as independent tasks the subtraction would underflow; only the polling order protects it.)", "quantifier": "every interleaving of the three activities at their suspension points", "why_tests_cant": "needs a particular interleaving", "anchors": ["src/buffer.rs: start, total_in_buffer"]}
{"id": "C26", "title": "Polling back-off is bounded and resets", "statement": "Every idle wait of a polling component lasts at most 2601 ms, the waits lengthen until then, and after any activity the next wait is the shortest again; the reported attempt count never underflows.", "quantifier": "every sequence of waits and resets", "why_tests_cant": "all sequences", "anchors": ["src/back_off.rs: BackOff::wait, BackOff::reset"]}
{"id": "C27", "title": "Connection strings mean what the documented syntax says", "statement": "A connection string is accepted iff it is empty or has the form start pipe (middle pipe)* end of the documented syntax, and then the resulting connections are the described ones: types (long and short spelling), names, ports (default STDOUT), priorities (default 0), pipe variations (default Terminate), independently of the spaces around pipes.", "quantifier": "every string; every well-formed connection description in every spelling", "why_tests_cant": "infinite language; both directions (nothing else accepted, everything accepted is right)", "anchors": ["src/config.rs: load_connection_from_string, parser", "README.md: Pipe Variations, Output Types and Input Priorities"]}
{"id": "C28", "title": "Parsed connection sets are always well shaped", "statement": "Every non-empty accepted connection string yields at least two connections: one start, any number of middles, one end; names are non-empty and consist of letters, digits and underscore only; the pipe variation before a component is stored on that component.", "quantifier": "every accepted string", "why_tests_cant": "infinite language", "anchors": ["src/config.rs: parser, Connection::convert_to_input_breakable"]}
{"id": "C29", "title": "Priority literals denote their number", "statement": "A priority literal that is an optional minus sign followed by digits denotes that number when it fits 64 bits; an empty, bare-minus or out-of-range literal silently denotes 0.", "quantifier": "every digit string", "why_tests_cant": "infinite; boundary at 2^63", "anchors": ["src/config.rs: parser port_preference"]}
{"id": "C30", "title": "Expanding connection strings keeps everything else", "statement": "Converting the connection strings of a configuration replaces each valid string by its connections, leaves structured connections and invalid strings as they were, reports exactly the invalid ones, keeps all keys, and doing it twice is the same as once.", "quantifier": "every configuration", "why_tests_cant": "all configurations", "anchors": ["src/config.rs: convert_connections"]}
{"id": "C31", "title": "Lint reports exactly the discrepancies", "statement": "If some connection string is invalid lint reports exactly the invalid ones; otherwise it reports a component as configured-but-unused, used-but-unconfigured or monitored-but-missing iff it is, and an empty report means none exists.", "quantifier": "every configuration", "why_tests_cant": "all configurations; completeness of a report cannot be tested", "anchors": ["src/config.rs: lint, config_lint_*"]}
{"id": "C32", "title": "Configuration edits touch only what they name", "statement": "Setting a watermark, faucet source, drain destination, launch command/path/arguments/environment or a connection changes only the named setting of the named component; repeating an edit changes nothing; the last edit of a setting wins; edits of different settings or different components commute.", "quantifier": "every configuration and pair of edits", "why_tests_cant": "all configurations and edit pairs", "anchors": ["src/config.rs: Config setters", "src/bin/pa2.rs: process_user_config_action"]}
{"id": "C33", "title": "The watermark command stores ordered watermarks", "statement": "After setting the watermarks of a regulator to any two numbers in any order, the stored low watermark is the smaller and the high the larger, and the list of monitored buffers is unchanged.", "quantifier": "every pair of numbers and every configuration", "why_tests_cant": "all pairs", "anchors": ["src/config.rs: regulator_set_watermark"]}
{"id": "C34", "title": "Splitting connection sets into hops preserves exactly the hops", "statement": "After splitting, every connection is a single source-destination hop, the hops obtained from a connection set are exactly its consecutive pairs with source port, destination priority and pipe variation unchanged, in order, under distinct keys; no hop is lost or added.", "quantifier": "every set of well-shaped connection sets, of any length and any keys (including adversarial key names)", "why_tests_cant": "keys can be chosen to collide with generated ones; lengths are unbounded", "anchors": ["src/config_manip.rs: break_apart, rebuild_pair_up_connections_folder, generate_new_key"]}
{"id": "C35", "title": "Processing stops abnormally exactly on malformed connection sets", "statement": "Expansion of the configuration aborts (panics) iff some connection set is an invalid string, a single component, or has a start anywhere but first or an end anywhere but last.", "quantifier": "every configuration", "why_tests_cant": "characterises all inputs", "anchors": ["src/config_manip.rs: break_apart, rebuild_pair_up_connections_folder, connection_manipulation"]}
{"id": "C36", "title": "Invalid connection strings are reported, never crash", "statement": "An invalid connection string in a configuration makes process and graph print the lint report. (False: processing panics before lint runs.)", "quantifier": "every configuration with an invalid connection string", "why_tests_cant": "refuted for all such configurations at once", "anchors": ["src/config_manip.rs: connection_manipulation, rebuild_pair_up_connections_folder", "src/bin/pa2.rs: process_user_config_action"]}
{"id": "C37", "title": "Inserting junctions does not change who feeds whom", "statement": "After the automatic insertion of junctions every original hop still exists: following inserted junctions from its source port leads to its destination, exactly as many times as before, with its pipe variation and priority on exactly one hop of the way, and no source port reaches any destination it did not reach before.", "quantifier": "every set of hops, every iteration order of the internal hash maps", "why_tests_cant": "order of hash iteration and graph shape are unbounded", "anchors": ["src/config_manip.rs: add_junctions, add_start_junctions_for, add_end_junctions_for"]}
{"id": "C38", "title": "After junction insertion nothing but a junction is connected twice", "statement": "After the automatic insertion of junctions, every output port of a component that is not a junction feeds exactly at most one hop and every component that is not a junction is fed by at most one hop.", "quantifier": "every set of hops, every hash iteration order", "why_tests_cant": "all graphs", "anchors": ["src/config_manip.rs: add_junctions"]}
{"id": "C39", "title": "Generated names are fresh", "statement": "Names generated for junctions, drains and hops never equal a name already in use among those they must differ from, are always found, and are the first unused in the sequence base_1, base_2, ...", "quantifier": "every base name and set of existing names", "why_tests_cant": "adversarial existing names; termination of an unbounded search", "anchors": ["src/config_manip.rs: generate_new_key"]}
{"id": "C40", "title": "Every program that is a source gets its exit status consumed", "statement": "After processing, each launch that occurs as the source of a hop has exactly the EXIT hops it had if it had any, and otherwise exactly one, to a new null drain; nothing else is added, changed or removed, and existing drains keep their configuration.", "quantifier": "every configuration of hops", "why_tests_cant": "all configurations", "anchors": ["src/config_manip.rs: add_launch_exit_spies, identify_required_spies"]}
{"id": "C41", "title": "Prioritised inputs into any component work through an automatic junction", "statement": "Connecting several prioritised inputs to a component that is not a junction works, since a junction is inserted in front of it. (False: the priority of the first is carried over to the inserted hop, and wiring is refused.)", "quantifier": "every non-junction destination with two or more hops of which the first carries a non-zero priority", "why_tests_cant": "refuted in general, not on an example", "anchors": ["src/config_manip.rs: add_end_junctions_for", "src/waiter.rs: get_waiter"]}
{"id": "C42", "title": "Wiring connects each hop exactly as configured or reports why not", "statement": "For hop configurations, building the runtime either fails with an error naming the first hop that cannot be made, or creates exactly one component per distinct (type, name) mentioned and exactly one channel per hop with the hop's ports, priority and pipe variation, and no others.", "quantifier": "every list of hops and component configuration", "why_tests_cant": "all configurations", "anchors": ["src/waiter.rs: get_waiter, join, get_src_pull"]}
{"id": "C43", "title": "A lint-clean, legal configuration always wires up", "statement": "If lint finds nothing missing, every used launch has a command, sources are never drains, destinations never faucets, only launches use STDERR/EXIT ports (besides junctions and buffers), a buffer uses one output port, and non-zero priorities appear only on hops into components with several inputs or junctions (and not first), then processing (hop splitting, exit drains, junction insertion) followed by wiring succeeds.", "quantifier": "every such configuration and every hash order", "why_tests_cant": "composition of four passes over all configurations", "anchors": ["src/config_manip.rs: connection_manipulation", "src/waiter.rs: get_waiter"]}
{"id": "C44", "title": "Component identities are unambiguous", "statement": "Within a run each component has one identity, different components have different identities, looking up the identity in an error gives back exactly that component.", "quantifier": "every sequence of component introductions", "why_tests_cant": "all sequences", "anchors": ["src/waiter.rs: incr_id, get_id, get_name_by_id"]}
{"id": "C45", "title": "The outcome of a run reports every failure", "statement": "A run succeeds iff every component succeeded and then returns the sum of their counts; otherwise every component error is reported, none twice, earliest first when all carry a time. (Unless sorting the errors aborts, which is possible only if some error carries no time; see C46.)", "quantifier": "every combination of component outcomes", "why_tests_cant": "all result vectors", "anchors": ["src/waiter.rs: Waiter::start"]}
{"id": "C46", "title": "Sorting reported errors by time is well defined", "statement": "The comparison used for ordering errors is a consistent order. (False: an error without a time compares equal to all others, so equality is not transitive.)", "quantifier": "every triple of errors", "why_tests_cant": "sort implementations may panic or misorder on inconsistent comparisons", "anchors": ["src/waiter.rs: Waiter::start (sort_by)", "src/motion.rs: MotionError::instant"]}
{"id": "C47", "title": "Starting aborts exactly when a buffer is monitored twice", "statement": "Starting the flow managers aborts iff some buffer is listed twice over the active regulators' monitored buffers; a regulator naming any missing buffer is silently inactive.", "quantifier": "every regulator configuration", "why_tests_cant": "all configurations", "anchors": ["src/buffer.rs: add_buffer_size_monitor", "src/waiter.rs: configure_regulator, regulator_settings"]}
{"id": "C48", "title": "The drawing shows exactly the configured hops and components", "statement": "The graph has one edge per hop with its port and pipe variation, a node for each component mentioned, different components have different node identifiers, and each component is drawn in exactly one cluster.", "quantifier": "every configuration", "why_tests_cant": "all configurations; injectivity of identifiers over all names", "anchors": ["src/graph.rs: get_diagram and helpers", "src/config.rs: quick_add_connection_set"]}
{"id": "C49", "title": "Written configurations read back as themselves", "statement": "Every connection written out in structured form is read back as the same connection, although the three kinds are told apart only by which fields are present; component type names and port names read back as themselves.", "quantifier": "every connection, component type and port", "why_tests_cant": "all records under untagged decoding order", "anchors": ["src/config.rs: Connection (serde untagged), ComponentType::from_str, Display", "src/connectable.rs: OutputPort::from_str"]}
{"id": "C50", "title": "Environment settings on the command line are parsed as NAME=VALUE", "statement": "Each -e argument is cut at its first '='; the value may contain further '='; an argument without '=' or with an empty name is refused; among several settings of one name the last wins and the others are unaffected.", "quantifier": "every list of arguments", "why_tests_cant": "all strings", "anchors": ["src/bin/pa2.rs: launch env parsing"]}
{"id": "C51", "title": "A program's exit status is reported once, after everything else", "statement": "A launched program with its exit port connected produces on it exactly one message, the decimal exit code or '_' if it was killed, sent only after its input, output and error relays have all ended, and the port is closed right after.", "quantifier": "every interleaving of the three relays and every exit status", "why_tests_cant": "interleavings", "anchors": ["src/launch.rs: start"]}
{"id": "C52", "title": "Pipe variations apply to the exit port", "statement": "Marking the pipe from the exit port F or C protects the run from failing when the receiver is gone. (False: the variation is ignored there and the run fails, hiding other errors.)", "quantifier": "every exit hop with a gone receiver", "why_tests_cant": "needs the receiver to close first; refuted for all variations", "anchors": ["src/launch.rs: start"]}
{"id": "C53", "title": "A pipeline delivers every line to its end in order, for every schedule", "statement": "In a linear pipeline of any number of relays over channels of any positive capacities, under every interleaving, the messages arriving at the end are at every moment a prefix of the lines entering, nothing is lost, duplicated or reordered, and when all tasks have ended all of them have arrived.", "quantifier": "every number of stages, capacities, inputs and schedules", "why_tests_cant": "unboundedly many interleavings", "anchors": ["src/motion.rs: motion", "src/waiter.rs: Waiter::start"]}
{"id": "C54", "title": "A pipeline cannot deadlock and ends", "statement": "In such a pipeline, as long as not all tasks have ended some task can make a step, and no schedule is infinite: every maximal schedule ends with everything delivered and every channel closed.", "quantifier": "every number of stages, capacities, inputs and schedules", "why_tests_cant": "absence of deadlock over all schedules", "anchors": ["src/motion.rs: motion", "src/waiter.rs: Waiter::start"]}
{"id": "C55", "title": "Every branch of a fan-out receives the whole stream", "statement": "In any network of relays and junctions, cyclic or not, every channel carries exactly what its source received, in the order received, so each branch of a fan-out tree delivers a prefix, and in the end all, of the source's lines.", "quantifier": "every network topology, schedule and input", "why_tests_cant": "unbounded", "anchors": ["src/junction.rs", "src/motion.rs"]}
{"id": "C56", "title": "Loops can fill up and stop", "statement": "A loop built of bounded channels can reach a state in which no component can proceed although not all input has been processed (documented), with every capacity; a buffer in the loop prevents it.", "quantifier": "every capacity and loop length", "why_tests_cant": "reachability over all schedules", "anchors": ["README.md: Component Buffer & Regulator", "src/junction.rs", "src/buffer.rs"]}
{"id": "C57", "title": "Error texts name the right components", "statement": "Reported errors name as source and destination the components whose identities the failing pipe carries, whatever the kind of error, and say unknown only where the error carries no identity.", "quantifier": "every error and identity table", "why_tests_cant": "all errors", "anchors": ["src/bin_support.rs: waiter_error_to_string", "src/motion.rs: MotionError accessors"]}
{"id": "C58", "title": "Standard output carries only what flows to the '-' drain", "statement": "Processing a configuration prints nothing of its own on standard output. (False: a leftover debug print writes every configured drain.)", "quantifier": "every configuration with an unspied launch and a drain", "why_tests_cant": "refuted for all such configurations", "anchors": ["src/config_manip.rs: add_launch_exit_spies (println!)"]}
{"id": "C59", "title": "A regulator that has ended does not block its controller", "statement": "After a regulator or a faucet has ended, for whatever reason, pause and resume requests to it return instead of blocking. (True when it ends normally, which closes the control channel; false after a failing end, which leaves the channel open in the waiter: the second request blocks for ever, and with it the run.)", "quantifier": "every input, control history and failure of a regulator", "why_tests_cant": "the hang needs an I/O failure followed by two requests", "anchors": ["src/regulator.rs: start_secret", "src/faucet.rs: start_secret", "src/waiter.rs: manage_regulator_from_buffers"]}
{"id": "C60", "title": "The connection command stores only readable connections", "statement": "What `config connection join` stores always has a meaning: a readable connection string is stored as it is, anything else only if it is a connection or a list of connections in JSON or YAML; exactly what is neither is refused.", "quantifier": "every argument text and every behaviour of the JSON and YAML readers", "why_tests_cant": "the texts are unbounded", "anchors": ["src/bin/pa2.rs: convert_to_deserialized_connection"]}
{"id": "C61", "title": "A failure is reported with its cause", "statement": "Whatever component of a built pipeline fails, its error carries the time of the failure and the pipe it is about. (False: a buffer replaces every failure of its two relays by an error that carries neither.)", "quantifier": "every configuration that can be built, every component of it and every way it can fail", "why_tests_cant": "failures are combinations of what the operating system and all other components do", "anchors": ["src/buffer.rs: Buffer::start", "src/motion.rs: MotionError", "src/waiter.rs: Waiter::start"]}
{"id": "C62", "title": "A file that cannot be opened does not keep the rest from ending", "statement": "When the file of a faucet or drain cannot be opened, the failure ends that component's streams, so that its neighbours can end and the failure is reported. (False of the code for faucets: a faucet opens its file before it takes its output, which is therefore never dropped while start waits for everything to end.)", "quantifier": "every configuration that can be wired, every set of files that cannot be opened, every schedule", "why_tests_cant": "a test sees that nothing happens for a while, not that nothing ever will", "anchors": ["src/faucet.rs: Faucet::start (89-103), start_secret (124)", "src/drain.rs: Drain::start (60-71)", "src/waiter.rs: Waiter::start (391-401), get_waiter (480)"]}
{"id": "C63", "title": "Networks without circles do not get stuck", "statement": "In a network of relays, regulators and junctions whose channels lead nowhere back, as long as nothing outside fails, not all components have ended only if one of them, other than a junction looking at empty inputs, can make a step; there are only finitely many such steps; when none is possible all components have ended, all channels are closed and every branch has delivered everything.", "quantifier": "every network without circles, all capacities above zero, inputs and schedules", "why_tests_cant": "absence of deadlock over all networks and all schedules", "anchors": ["src/junction.rs: Junction::start", "src/motion.rs: motion", "src/waiter.rs: Waiter::start"]}
{"id": "C64", "title": "What runs is what was configured", "statement": "The runtime built from a list of hops is a well-formed network: every channel has one activity writing and one reading it. The channels between activities are exactly one for each hop, from the right port of the component it leaves to the component it enters, and one inside each buffer. Nothing else that runs (exit parts, buffer counts, managers) touches a data channel, but exit parts each their own.", "quantifier": "every configuration that can be built in which regulators, buffers and junctions are connected on both sides, every order of its maps, every execution", "why_tests_cant": "relates every configuration to every run of it", "anchors": ["src/lib.rs: get_waiter", "src/waiter.rs: Waiter::join, Waiter::start", "src/launch.rs: Launch::start", "src/buffer.rs: Buffer::start"]}
{"id": "C65", "title": "A running pipeline moves everything along every hop", "statement": "At every moment what came through a hop is an initial segment of what its source has taken in, in order, and what a buffer has taken out is an initial segment of what it has taken in. When all has ended without failures outside, these are equal and every target of every component has accepted everything. The exit port of a launch delivers one message, the text of the exit status, and only after all relays of the launch have ended.", "quantifier": "every configuration that can be built and is connected completely, all capacities, inputs, programs and schedules", "why_tests_cant": "all configurations and all interleavings", "anchors": ["src/waiter.rs: Waiter::start", "src/motion.rs: motion", "src/launch.rs: Launch::start", "src/buffer.rs: Buffer::start"]}
{"id": "C66", "title": "A pipeline without circles never comes to a standstill", "statement": "In a runtime without managers in which nothing leads back to where it started except through a program, as long as not everything has ended, some activity (component, part of a launch or buffer, exit part, count) that has not ended can make a step, and is not merely polling: not a junction all of whose inputs are empty and open nor a count with nothing to count. When nothing but such polling is possible, and nothing failed outside, everything has ended and every hop has delivered everything.", "quantifier": "every configuration that can be built, is connected completely and has no circles; all capacities above zero, inputs, programs, schedules; relays, regulators and exit parts may have failed in any way", "why_tests_cant": "absence of deadlock over all configurations and interleavings", "anchors": ["src/waiter.rs: Waiter::start", "src/launch.rs: Launch::start", "src/buffer.rs: total_in_buffer", "src/junction.rs: Junction::start", "src/motion.rs: motion"]}
{"id": "C67", "title": "Without circles and managers, everything ends", "statement": "In a runtime without buffer monitors in which the connections do not lead back to where they started, if every file, stream and program delivers a limited number of lines and every program ends, then in every schedule that does not leave out for ever somebody who could go on, everything ends, so the program ends; and if no file, stream or notification fails, every connection has then delivered everything.", "quantifier": "every configuration that can be wired, every capacity other than zero, every infinite fair schedule", "why_tests_cant": "infinite schedules; a test that waits for the end cannot tell late from never", "anchors": ["src/waiter.rs: Waiter::start", "src/motion.rs: motion", "src/junction.rs: Junction::start", "src/buffer.rs: Buffer::start, get_total_in_buffer_count", "src/launch.rs: Launch::start"]}
{"id": "C68", "title": "Unreadable fields are refused", "statement": "A configuration in structured form in which a known field is given twice or has a value that cannot be read is refused when it is read. (False for connections: the kinds of connection are told apart by trying, so an unreadable port, variation or priority counts as missing and the component becomes an end or a beginning.)", "quantifier": "every record", "why_tests_cant": "all combinations of fields and values", "anchors": ["src/config.rs: Connection (serde untagged), Config, LaunchConfig, RegulatorConfig, DrainConfig, FaucetConfig", "src/connectable.rs: InputPort"]}
{"id": "C69", "title": "Flow control does not make a pipeline hang", "statement": "A pipeline in which the connections do not lead back to where they started, and in which every regulator lies upstream of the buffers that control it, does not come to a standstill before everything has ended. (False of the code: a regulator waiting for its full output does not look at its requests, the manager waits for the second request to fit, the count for the manager, the buffer for the count and the regulator's output for the buffer.)", "quantifier": "every configuration that can be wired, every schedule", "why_tests_cant": "the hang needs a particular timing between six activities", "anchors": ["src/waiter.rs: Waiter::start, join order (401), managers", "src/regulator.rs: start_secret, RegulatorControl", "src/buffer.rs: total_in_buffer", "src/junction.rs: Junction::start"]}
{"id": "C70", "title": "Flow control acts on what the buffers really hold", "statement": "In every wired pipeline, run as the code runs it, no buffer's count ever subtracts from zero; every size a buffer reports differs by at most nine from the number of messages (and end) it has taken in and not given out; a manager hears exactly the reports of the buffers it looks after, in order, and its regulator exactly its requests; and a regulator is asked to pause only if its buffers have held, each at some moment before, together at least the high watermark but for nine per buffer.", "quantifier": "every configuration that can be wired, every schedule (for the first: every one in the code's polling order)", "why_tests_cant": "the reports lag behind by amounts depending on the schedule; the bound is over all of them", "anchors": ["src/buffer.rs: Buffer::start, total_in_buffer (67-100, 170)", "src/waiter.rs: Waiter::start, join order (391-401), manage_regulator_from_buffers", "src/regulator.rs: RegulatorControl"]}
{"id": "C71", "title": "What is written is what happens", "statement": "A configuration written as it should be is processed and wired up whatever the hash orders. While it runs, each hop of the configuration as written has conveyed the beginning of what its source took in, and each component has taken in a beginning of a mixture of what came over the hops leading to it, every message once and those of one hop in order. If nothing outside fails, then at the end nothing is missing; and without circles and managers, every fair schedule comes to that end.", "quantifier": "every sound configuration, every hash order, every channel capacity, every schedule", "why_tests_cant": "quantifies over all configurations and all schedules; the junctions and drains put in depend on hash order", "anchors": ["src/config_manip.rs", "src/waiter.rs: get_waiter, Waiter::start", "src/junction.rs", "src/motion.rs"]}
{"id": "C72", "title": "Every command line is understood in one way or refused", "statement": "Of the command lines that the declarations of arguments let through, each either asks for exactly one thing - which file in which format, which component, which values - and that is the request acted on, or lacks something and is refused: it stops short, gives no id, a number that is none or does not fit into 64 bits, a variable without a name, or is one of the two commands that are declared but that nobody wrote (config empty, connection del). The format never depends on the ending of the file name, and a missing id is not what the user is told about.", "quantifier": "every command line the declarations allow, every value of its arguments", "why_tests_cant": "values are arbitrary texts; that nothing else is accepted or misread is a claim about all of them", "anchors": ["src/bin/pa2.rs: get_clap_app, get_user_action, get_standard_config_opts, get_config_format (25-158, 240-449)"]}
{"id": "C73", "title": "Edits from the command line do what they say, one after the other", "statement": "A command that edits a configuration, given one that can be read, prints a configuration that says the same except for the setting asked for, and exits with code 0. In a chain of such commands, each reading what the one before it printed, every command succeeds, and at the end each setting has the value of the last edit about it, or the value it had before if there was none; exactly the components edited have been added.", "quantifier": "every configuration, every chain of edits of any length, every order in which hash maps are written out", "why_tests_cant": "chains of unbounded length, arbitrary configurations and values, hash orders differing between the commands of one chain", "anchors": ["src/bin/pa2.rs: process_action, main", "src/user_interface.rs", "src/config.rs"]}
{"id": "C74", "title": "How the program ends and what it says", "statement": "For each command: lint succeeds exactly if there is nothing to complain of, and otherwise names every fault and nothing else with code 1; graph and process go on exactly if the configuration (for process: the processed one) is ready; process exits with code 0 exactly if the pipeline was wired up, started and ended without error, and with code 1 and one line per error otherwise; what cannot be read, or is lacking, gives code 1 and a message. The program aborts only on connection sets that are malformed or inside a running pipeline, and only a running pipeline can go on for ever.", "quantifier": "every command line the declarations allow, every content of files and standard input, every hash order, every outcome of the pipeline", "why_tests_cant": "a claim about all inputs and all command lines; that no other ending is possible cannot be sampled", "anchors": ["src/bin/pa2.rs: process_action, main", "src/config_manip.rs: lint", "src/waiter.rs: get_waiter, Waiter::start"]}
{"id": "C75", "title": "What the exit code of a run tells", "statement": "When a pipeline has ended, its outcome is a success exactly if no component broke, that is, none had a file that could not be opened, a read or write that failed, or a listener missing where the pipe variation says that this is fatal; otherwise the errors name exactly the components that broke, each with its cause. If the program then exits with code 0 and no program closed its input early, everything was delivered as the configuration says. A success does not mean delivery if a program did close its input early.", "quantifier": "every sound configuration, every schedule, every outcome of reads, writes and opening of files, every order of collecting results", "why_tests_cant": "failures at any point of any schedule in pipelines of any shape; that no failure is ever swallowed is a claim about all of them", "anchors": ["src/waiter.rs: Waiter::start (355-421)", "src/faucet.rs, src/launch.rs, src/buffer.rs, src/junction.rs, src/drain.rs, src/regulator.rs: start", "src/bin/pa2.rs: process_action, main"]}
{"id": "C76", "title": "A drawing can be read by Graphviz, and its legend explains it", "statement": "Expected: what graph prints for a configuration without faults is a document that Graphviz can read. It can exactly if the name of each component drawn is a word that is no keyword of the language, or a whole number, and the names of the sets drawn as clusters are made of word characters. Names in connection strings are always made of word characters, so they fail only as keywords (node, edge, graph, ...) or by beginning with a digit. The legend can always be read, and explains every look that a component can have, by the word for its type only.", "quantifier": "every configuration, every order of hash maps, with and without border", "why_tests_cant": "names are arbitrary texts; the exact condition is a claim about all of them", "anchors": ["src/graph.rs: get_diagram, get_legend", "src/bin/pa2.rs: main (568-603)", "src/config.rs: component_name (732-733)"]}
{"id": "C77", "title": "Pipe variations across a whole run", "statement": "Expected (README 661-675): when whoever receives cannot receive any more, T terminates Pipeawesome; F closes the pipe, so that the sender finds it closed; C keeps the pipe open and throws the data away. In every run: an activity that writes into a pipe with C (or T) and ends without failing has read until all its inputs ended, has got everything written for it and tried to pass on everything; with C or F finding nobody listening is never an error; with T or F (not for junctions) nothing is read or written after a refusal; once an activity has ended, whatever is written for it is refused; after something fatal an activity only lets go of its ends. T does not terminate Pipeawesome: the component that wrote ends with an error, so that the run is no success, but everything else goes on.", "quantifier": "every configuration that can be run, every schedule, every behaviour of files and programs, with files that cannot be opened", "why_tests_cant": "it depends on when a receiver goes away relative to what the sender does, which differs between schedules", "anchors": ["src/motion.rs: motion_worker (490-561), motion (564-585)", "src/connectable.rs: Breakable", "src/launch.rs: input relay", "README.md: Pipe Variations (661-675)"]}
{"id": "C78", "title": "Bytes go through unchanged", "statement": "However the operating system cuts streams into chunks: what a drain or a program is given to write is at all times a mixture of beginnings of the lines of the streams (faucets, outputs of programs, exit codes) that lead there, through any number of junctions, buffers and regulators, no line broken up, altered, repeated or missing before a later one. At the end, if nothing outside failed, it is a mixture of all their lines. Where one stream alone leads there, the bytes written are exactly the bytes of that stream, line ends and a last line without one included.", "quantifier": "every sound configuration, every hash order, every content and chunking of the streams, every channel capacity, every schedule", "why_tests_cant": "quantifies over all byte contents, chunkings, configurations and schedules together", "anchors": ["src/motion.rs: motion_read_buffer (333-383), motion_read (385-417), motion_write (420-444)", "src/faucet.rs", "src/drain.rs", "src/launch.rs", "src/config_manip.rs"]}
{"id": "C79", "title": "What is printed about a failure tells which failure it was", "statement": "The line printed about an error of a run begins with the components at both ends of the pipe it is about and then, in quotes, words for what went wrong; from the line one can tell both, whatever the operating system says, if no name contains a bar or a dash (they are written between the parts). Each complaint about a configuration begins with its number and names what it is about; the kind can always be told from it, and everything if names have no blanks and names of sets no colons. Failed pausing and failed resuming cannot be told apart.", "quantifier": "every pair of errors or complaints, every text of the operating system, every table of names", "why_tests_cant": "distinguishing every pair of messages for all names and all reasons is a claim about unboundedly many texts", "anchors": ["src/motion.rs: Display for MotionError", "src/bin_support.rs: waiter_error_to_string", "src/waiter.rs: WaiterError::description", "src/config.rs: ConfigLintWarning::to_string"]}
{"id": "C80", "title": "The failure of a junction ends what depends on it and is reported", "statement": "When something fatal happens to a junction (in particular when one of its outputs has pipe variation T and nobody listens there any more), its other outputs are closed like those of any other component that ends, so that what reads from them can end, the program ends and the failure is reported.", "quantifier": "every configuration and assembled pipeline, every capacity, every interleaving, every choice of files that cannot be opened, every junction, every reason for its failure", "why_tests_cant": "that something never happens, on any schedule and however long one waits, cannot be observed by running", "anchors": ["src/junction.rs:172-182 Junction::start", "src/waiter.rs: start", "src/startable_control.rs"]}
{"id": "C81", "title": "A loop does not end by itself", "statement": "If the components of a pipeline form a loop, then as long as no stream fails nothing on the loop ends, nor anything the loop leads to, and so the program does not end, unless the loop goes through a program that ends what it prints before its input has ended (as the referee of the README's example does). When a pipeline has ended, some program on each of its loops has done so.", "quantifier": "every configuration and assembled pipeline with loops of any shape, every capacity, every interleaving, with and without managers, every behaviour of the programs", "why_tests_cant": "that something never ends, on any schedule, cannot be observed by running it for some time", "anchors": ["src/motion.rs: motion, motion_worker", "src/junction.rs: Junction::start, iteration", "src/buffer.rs: Buffer::start", "src/launch.rs: Launch::start", "README.md: Multiple turns", "examples/tic-tac-toe/referee.awk"]}
{"id": "C82", "title": "With a buffer on every loop nothing gets stuck, without it may", "statement": "Suppose every loop of a pipeline, also through programs, passes a buffer. Whenever nothing goes on inside any more (everyone left looks again in vain, or waits for a file or program to print, for a program to end, or for a program that itself waits for what it has printed to be taken), and no regulator is paused and no manager waits for room, no message lies in a channel whose reader has not ended, nor in a buffer, and nobody waits for room. With a loop without a buffer that is false: the README's deadlock occurs.", "quantifier": "every configuration and assembled pipeline, every capacity other than zero with unbounded buffers, every interleaving, with and without managers, every behaviour of the programs; the deadlock is a concrete run with the real capacities", "why_tests_cant": "absence of deadlock on all schedules and for all programs", "anchors": ["README.md: Component: Buffer & Regulator", "src/buffer.rs: Buffer::start", "src/faucet.rs, src/junction.rs, src/launch.rs, src/regulator.rs: bounded channels", "src/motion.rs: motion_worker", "src/junction.rs: Junction::start", "src/launch.rs: Launch::start"]}
{"id": "C83", "title": "Without buffers only so much can be on its way", "statement": "Along any way of hops that leads through regulators and junctions, what has been put in at its beginning is at any moment at most by so much more than what has been taken out at its end as fits into the channels (8 messages each, 1 behind a program) and into the hands of the components between (1 each), as long as nothing on the way was found closed; two more when counted from the file or program it comes from to the one it goes to. That much does get ahead in some run. Along a way through regulators it is so from any moment on, closed or not.", "quantifier": "every configuration and assembled pipeline with the real capacities, every way, every interleaving, every prefix of a run", "why_tests_cant": "a bound on all schedules, and its exactness", "anchors": ["README.md: Buffers", "src/connectable.rs: channel capacities", "src/motion.rs: motion_worker, motion_read, motion_write", "src/junction.rs: Junction::start", "src/regulator.rs: Regulator::start", "src/launch.rs: add_output"]}
{"id": "C84", "title": "Flow control bounds what a buffer holds", "statement": "After its manager has asked a regulator to pause and until it asks again, the regulator passes on at most one more message. So a buffer watched by a manager, and to which a way leads from the regulator this manager controls, holds at any moment at most the high watermark (or one more than the low one, if that is more), what fits into this way, and 29 messages more. It may hold more than the high watermark. Nothing else bounds what a buffer holds: without a manager, for every number there is a run in which the buffer holds so many messages.", "quantifier": "every configuration and assembled pipeline with the real capacities, every managed regulator, every buffer watched and way to it, every interleaving, every prefix of a run", "why_tests_cant": "a bound over all schedules of regulator, manager, counter and buffer; the manager may act late", "anchors": ["README.md: Buffers, Regulators", "src/regulator.rs: Regulator::start", "src/buffer.rs: Buffer::start", "src/waiter.rs: start, regulator_settings", "src/back_off.rs"]}
{"id": "C85", "title": "No standstill with programs as processes and pipes of limited size", "statement": "Take programs as processes that do what they like depending on what has happened to them (wait for input before writing, wait for room before reading, close streams, end early), connected through pipes that hold a limited number of bytes, a message going into a pipe or coming out of it bit by bit. If nothing leads back to where it started, be it through programs, then as long as not everything has ended, programs included, something can happen that is not merely looking again. So if nothing more can happen, everything has ended and every hop has delivered everything. With managers the only other reasons are a manager waiting to be heard and a regulator waiting to be told to resume.", "quantifier": "every configuration without a way back, every program, every pipe size of at least one byte, every channel capacity of at least one, every interleaving of activities, pipes and programs", "why_tests_cant": "quantifies over all programs and all schedules of programs, pipes and relays; a deadlock needs a particular interleaving", "anchors": ["src/launch.rs: Launch::start", "src/motion.rs: motion_write, motion_read", "src/waiter.rs: start", "README.md: deadlock being possible in configurations that include loops"]}
{"id": "C86", "title": "A pipeline computes what its programs compute", "statement": "With programs as processes and pipes of limited size: what a program reads is, at all times, the beginning of a mixture of the lines that the programs and files before it have given, each keeping its order (byte for byte what it gave, if there is only one); in the end, if nothing fails, it is all of it. So if every program on the way reads its input to the end and prints a function of it, what arrives at a drain is these functions, one after the other, of what the file contains, whatever the sizes of pipes and channels, the pieces in which programs read and write and the schedule; before the end, and whatever fails, it is the beginning of that if the programs print only what belongs to what they have read. If all programs read to the end, no stream can fail; and if nothing leads back, when nothing more can happen everything has ended and the drains have what the programs compute.", "quantifier": "every sound configuration, every program, every function a program may compute, every file content, every pipe size and channel capacity, every interleaving", "why_tests_cant": "quantifies over all programs, contents, chunkings and schedules", "anchors": ["src/launch.rs: Launch::start", "src/motion.rs: motion_write, motion_read, motion", "src/waiter.rs: start", "README.md: introduction"]}
{"id": "C87", "title": "A pipeline of programs comes to its end", "statement": "If nothing leads back, not even through a program, if whoever can make something happen (components, threads of the operating system's pipes, programs) does so sooner or later, if no program goes on for ever without reading more and more, if every file that is read has an end and no junction meets a failure it cannot get over, then without managers everything ends, programs included, and nothing happens afterwards; with managers, everything ends unless a manager is left waiting for room for a request or a regulator for the word to resume. If moreover all programs read to the end and no file or notification fails, then by that time each drain has written what the programs on the way make, one after the other, of what the file contains.", "quantifier": "every sound configuration, every family of programs, every function they compute, every file content, every pipe size and channel capacity, every fair infinite schedule", "why_tests_cant": "termination under every fair schedule is a claim about infinitely many infinite executions", "anchors": ["src/launch.rs: Launch::start", "src/motion.rs: motion", "src/waiter.rs: start", "src/bin.rs: main"]}
{"id": "C88", "title": "Programs on loops only wait for input in the end", "statement": "If connections lead round in circles, perhaps through programs, but every circle passes through a buffer, then whatever the programs are and however little a pipe holds: when nothing can happen any more (and no regulator is paused, no manager waits for room, no junction has met a failure it cannot get over), no channel to anybody who has not ended holds a message, no buffer holds one, every program that has not ended wants to read and has nothing to read, what programs have printed has been taken, and whatever has not ended is on a circle or behind one. Without a buffer on a circle this is not so even if programs pass on all they read: a junction and a program like cat can come to a standstill with lines of a file left over, as the README warns.", "quantifier": "every sound configuration, every family of programs, every pipe size and channel capacity, every reachable state", "why_tests_cant": "whether a circle jams depends on how reading, printing and passing on interleave; a test sees some interleavings of some programs", "anchors": ["src/launch.rs: Launch::start", "src/junction.rs: Junction::start", "src/buffer.rs: Buffer::start", "src/motion.rs: motion", "src/connectable.rs: make_connection"]}
{"id": "C89", "title": "Pipes hold what they hold, and an exit port tells the program's own exit code", "statement": "With programs as processes: at every moment no more bytes lie between the code and a program than the pipe between them holds, in either direction. At every moment, nothing has come through an exit port, or exactly one message; then the program has ended, the message is the text of the exit code that it ended with (an underscore if it was killed), and whatever goes to and from the program had ended before. If everything comes to its end without trouble then exactly that message has come.", "quantifier": "every assembled network, every family of programs, every pipe size and channel capacity, every reachable state", "why_tests_cant": "when a program ends relative to when its outputs are read is up to the scheduler; a test sees a few orders", "anchors": ["src/launch.rs: Launch::start", "src/motion.rs: motion"]}
{"id": "C90", "title": "A network of programs solves the equations of its programs, and its outcome does not depend on timing", "statement": "Networks of any form, with streams that join and divide, outputs, error outputs and exit ports, and programs without input. In the end, if nothing fails, what the programs have read, printed and ended with satisfies: each program has done what it is known to do (any relation between what it read, printed and ended with), and each program, and each drain, has got a mixture of the lines of the files, outputs, error outputs and exit codes that lead there. If nothing leads back, and whatever order the lines come in a program prints the same and ends with the same, there is only one solution: any two complete runs write the same lines to every drain, and the same bytes where one stream leads, whatever the schedule, the order in which junctions were inserted, the sizes of pipes and channels, and the programs, as long as they are known to do the same. And if programs do not go on for ever without reading, and nobody is neglected for ever, the end is reached.", "quantifier": "every sound configuration, every family of programs and of relations they meet, every pipe size and channel capacity, every hash order, every schedule", "why_tests_cant": "determinacy is about all pairs of schedules, sizes and programs; a test compares a few runs of a few programs", "anchors": ["src/launch.rs: Launch::start", "src/motion.rs: motion", "src/junction.rs: Junction::start", "src/connectable.rs: make_connection"]}
{"id": "C91", "title": "With a buffer on every loop, when nothing is on its way any more everybody has got everything", "statement": "Networks of any form, loops included, as long as each has a buffer on it, with programs as processes of their own. Suppose nothing has failed, no regulator is paused, and nothing can happen any more except that junctions, counters and managers that have nothing in hand look again and again. Then everything has been handed on over every hop, through every buffer, and to every file and program; every program that has not ended waits for input, having read, byte for byte, a mixture of the lines of the files, of all complete lines (and, when they have shut their output, incomplete ones) that the programs before it have printed, itself perhaps among them, and possibly of exit codes; and every drain has written such a mixture.", "quantifier": "every sound configuration with a buffer on every loop, every family of programs, every pipe size and channel capacity, every hash order, every schedule", "why_tests_cant": "a loop never ends, so a test can only stop looking at some time; that nothing is lost or held back anywhere once it is quiet is a statement about all schedules", "anchors": ["src/junction.rs: Junction::start", "src/buffer.rs: Buffer::start", "src/motion.rs: motion", "src/launch.rs: Launch::start"]}
{"id": "C92", "title": "With programs that go line by line, loops and merges do not make the outcome depend on timing", "statement": "Networks of any form with a buffer on every loop, no exit ports connected, and programs that make of each line they read certain lines on each of their outputs (filters, editors), however they cut up their reading and writing. At all times no program has read more lines than any plan grants that grants each program at least what comes, according to the plan, from the files and programs before it; so a loop in which lines use themselves up stays within bounds known beforehand. When nothing is on its way any more, what the programs have read is the least solution of the equations 'a program reads the lines of the files before it and those made by the programs before it', and every drain has written the lines that go with it. Two runs that share nothing but the configuration, the files and what is made of each line have therefore, in the end, given every program and every drain the same lines, each as often, in some order.", "quantifier": "every sound configuration with a buffer on every loop, every family of programs that go line by line, every pipe size and channel capacity, every hash order, every two schedules", "why_tests_cant": "a test compares a few schedules; that no schedule, pipe size or order of merging changes what arrives, in a network with cycles, is a statement about all pairs of executions", "anchors": ["src/junction.rs: Junction::start", "src/buffer.rs: Buffer::start", "src/motion.rs: motion", "src/launch.rs: Launch::start"]}
{"id": "C93", "title": "With a buffer on every loop, networks of line-by-line programs come to rest if and only if there is a plan, and then stay so", "statement": "Total correctness with loops and merges. Networks without managers in which every loop goes through a program and has a buffer, with programs that make of each line certain lines on each output and do not go on for ever without reading. Whatever the order in which things happen, provided only that whoever can make something happen does so sooner or later and that no file or notification fails: if there is a plan that grants each program at least what comes, according to the plan, from the files and programs before it, then from some time on nothing is on its way any more, every program has read the lines of the least solution and every drain has written what goes with it. If there is no plan, it never comes to rest. Once nothing is on its way any more this lasts: all that can ever happen is that junctions and counters that were looking for something go on looking and find nothing. Every course of events can be carried on so that nobody is neglected, so the assumption is never empty.", "quantifier": "every sound configuration with a buffer on every loop, every family of programs that go line by line, every pipe size and channel capacity, every hash order, every fair schedule", "why_tests_cant": "whether a loop comes to rest under every schedule is a liveness statement about infinite executions; a test can only wait for some time and cannot tell rest from a long pause", "anchors": ["src/junction.rs: Junction::start", "src/buffer.rs: Buffer::start", "src/motion.rs: motion", "src/launch.rs: Launch::start", "src/waiter.rs: Waiter::start"]}
{"id": "C94", "title": "An error that is reported is what happened, and each component is named at most once", "statement": "When a run fails, every error shown corresponds to an event. Errors of buffers only say that something went wrong. For any other component that is named, either its file could not be opened and the error says so, or the last thing that happened to one of its activities, apart from letting go of its ends, is what the error says: reading a file or stream failed for the reason given, writing the given bytes failed for the reason given, flushing failed, a program had closed its input, or the given bytes were refused on the very hop named. The source and destination shown are the two ends of one hop of that component; for errors of reading and opening the destination is shown as unknown. No component is named twice.", "quantifier": "every runtime that can be built, every schedule, every failure of files, programs and channels, every hash order", "why_tests_cant": "there are as many failures as there are operations in an execution, and which comes last in an activity depends on the schedule", "anchors": ["src/motion.rs: motion", "src/motion.rs: MotionError", "src/launch.rs: Launch::start", "src/junction.rs: Junction::start", "src/waiter.rs: Waiter::start", "src/waiter.rs: WaiterError"]}
{"id": "C95", "title": "With flow control too, a pipeline comes to its end having computed what its programs compute, unless a manager waits for ever to make a request", "statement": "Consider a pipeline with regulators whose managers pause and resume them. Suppose nobody can be held up by themselves, where whoever writes into a channel can be held up by its reader, a program's input by its outputs, and a regulator by the outputs of the buffers it watches. Suppose every low mark is below its high mark, the channels inside buffers are unlimited, nothing fails, and whoever can make something happen sooner or later does. Without loops everything then ends and every drain has got exactly what the programs make of the files; with loops and programs that go line by line, the network comes to rest at the least solution. The only exception is a manager that from some time on waits for ever for room for a request. If requests can be left in any number there is no exception.", "quantifier": "every configuration, every hash order, every capacity, every program, every fair schedule of activities, pipes and programs, every file", "why_tests_cant": "whether a regulator stays paused depends on the order of lines, requests and notifications, of which there are infinitely many", "anchors": ["src/regulator.rs", "src/waiter.rs: get_managers", "src/buffer.rs", "src/motion.rs: motion", "src/launch.rs: Launch::start"]}
{"id": "C96", "title": "With another buffer between a regulator and the buffers that control it, requests get through and the pipeline comes to its end with the right result, also with the capacities of the code", "statement": "Consider a pipeline with regulators whose managers pause and resume them, in which nothing leads back and no exit port is used. Suppose that whatever the input of a buffer with a manager can hold up lies downstream of the regulator that the buffer controls, so that there is another buffer in between, and that no buffer with a manager can be held up by another. Suppose every low mark is below its high mark, nothing fails, programs read their input to the end and do not go on for ever without reading, and whoever can make something happen sooner or later does. Then everything ends, and every drain with one stream before it has got exactly what the programs make of the files. No manager waits for ever, even if there is room for one request only, as in the code.", "quantifier": "every configuration, every hash order, every capacity other than none, every program, every fair schedule of activities, pipes and programs, every file", "why_tests_cant": "whether a manager is kept waiting depends on the order of lines, requests and notifications, of which there are infinitely many", "anchors": ["src/regulator.rs", "src/waiter.rs: get_managers", "src/buffer.rs", "src/motion.rs: motion", "src/launch.rs: Launch::start"]}
{"id": "C97", "title": "Each program is started with exactly the command, arguments, directory and environment of its configuration", "statement": "Whatever processing does to a configuration, every program that is in the runtime built from it is started with the command and the arguments of its own launch configuration, in the order given; in the directory given, or if none is given in the one pipeawesome runs in; with each environment variable that is given, and all others as pipeawesome has them itself, whatever the order of the hash maps. Its standard input is piped if and only if a hop leads to it, its standard output and standard error if and only if a hop leads away from that port; streams that are not used are null.", "quantifier": "every configuration, every processing order, every hash order, every environment and working directory of pipeawesome itself", "why_tests_cant": "configurations and environments are unbounded, and hash orders vary from run to run", "anchors": ["src/launch.rs: Launch::environment_configure", "src/launch.rs: Launch::start", "src/waiter.rs: get_waiter"]}
{"id": "C98", "title": "Whatever fails, a pipeline whose junctions write to pipes of variation C or F only ends and says what failed", "statement": "Take a configuration without managers and without anything leading back to where it started, in which every pipe out of a junction has variation C or F and every faucet can open its file. Then whichever drains cannot create their files, whichever programs end early, whichever writes are refused and whichever reads fail: if what is read is limited and nobody who could go on is left out for ever, everything ends, and, being polled as the code does, start returns: success if and only if nothing broke, and otherwise errors that name exactly the components that broke.", "quantifier": "every such configuration, every schedule, every input, every pattern of failures", "why_tests_cant": "a single pattern of failures and a single schedule are tried by a test; there are unboundedly many of both", "anchors": ["src/junction.rs: Junction::start", "src/motion.rs: motion_one, motion_worker, write", "src/waiter.rs: Waiter::start", "src/drain.rs: Drain::start", "src/buffer.rs: Buffer::start"]}
{"id": "C99", "title": "A request to a regulator that has failed keeps the program from ever ending", "statement": "In a pipeline with flow control, once a regulator has failed in a way it cannot get over (a refused write to a pipe of variation T, an error on reading or writing), a single further request of its manager, or a request it had not yet taken when it failed, is enough: whatever happens afterwards, start does not return, so it reports neither this failure nor anything else. Such a course of events exists.", "quantifier": "all configurations with managed regulators, all files that cannot be opened (other than those of faucets), all executions with the capacities of the code and all their continuations", "why_tests_cant": "that something never ends, whatever happens, is a statement about all continuations of a run", "anchors": ["src/regulator.rs: start_secret, control, pause, resume", "src/waiter.rs: manage_regulator_from_buffers, start"]}
{"id": "C100", "title": "A buffer that cannot hand on what it holds keeps its paused regulator waiting, and the program from ending, for ever", "statement": "In a pipeline with flow control, suppose a regulator feeds a buffer it is controlled by, has been told to wait, and the half of the buffer which hands on has ended (whoever is downstream has failed) while the buffer holds more than the low watermark and has been fed all the regulator let through. Then, whatever happens, the regulator and both halves of the buffer never act again, the regulator is never told to go on, and start does not return, so the failure downstream is never reported. Such a course of events exists: a disk that is full suffices.", "quantifier": "all configurations with managed regulators, all files that cannot be opened (other than those of faucets), all capacities, all executions and all their continuations", "why_tests_cant": "that something never ends, whatever happens, is a statement about all continuations of a run", "anchors": ["src/buffer.rs: start, total", "src/regulator.rs: start_secret, control", "src/waiter.rs: manage_regulator_from_buffers, start"]}
{"id": "C101", "title": "Which errors are taken for the same, and what can be learnt from them", "statement": "Two motion errors compare as equal exactly if they are the same up to their times and what the operating system said, and are not of the kinds CloseIOError, OpenIOError, OutputClosed and LaunchSpawnError, which are not even equal to themselves. The comparison is symmetric and transitive. Errors that compare as equal are about the same pipe. journey and pull_journey never disagree, and together give every identity an error carries; journey_source is the source among them. Names of ports are read in exactly three spellings each.", "quantifier": "all pairs (triples) of errors; all strings", "why_tests_cant": "statements about all pairs and triples of errors of twelve kinds with arbitrary contents, and about all strings", "anchors": ["src/motion.rs: PartialEq for MotionError, MotionError::journey, pull_journey, journey_source", "src/connectable.rs: FromStr for OutputPort"]}
{"id": "C102", "title": "The source the tests read from gives its text in portions, and messages are written unambiguously", "statement": "A read of the fake reader gives the next bytes of its text, as many as are left, fit into the buffer and are allowed at once, and never panics. Whatever the text and the size of the portions (greater than zero), what is read through it are the lines of the text and then the end. Two messages that are written alike are the same.", "quantifier": "all texts, portion sizes, buffer sizes and positions; all pairs of messages", "why_tests_cant": "the fake reader is what the tests of the splitting rely on; they use one text and one portion size", "anchors": ["src/fake_read.rs: FakeReader::new, new_by_size, poll_read", "src/motion.rs: Serialize for IODataWrapper"]}
{"id": "C103", "title": "In the running program an input of a junction is not served while one of a smaller number has something", "statement": "Whenever a junction of the running program takes a message from an input, then each of its inputs with a smaller number was empty at a moment since when the junction has only looked at inputs that were empty, or is at its end, or all outputs of the junction are of variation F and closed. Consequently, as long as there is something in an input, at most one message is taken from all inputs of larger numbers together, unless all outputs are of variation F and closed. In terms of the configuration as it is written, this holds of any two connections that end at the same component with different numbers.", "quantifier": "all configurations whose hops are complete, all runs, whatever files cannot be opened, all channel sizes, all junctions and inputs", "why_tests_cant": "the one test of junctions has no other components running beside it and looks at seven iterations", "anchors": ["src/junction.rs: initialize_stdin, iteration", "src/waiter.rs: add_join", "src/config_manip.rs"]}
{"id": "C104", "title": "Inputs of a junction that have the same number take turns only if that number is the smallest", "statement": "An input of a junction of the running program that has the smallest number and always has something gets its turns: from no other input are more than two messages more taken than from it. But of two inputs of the same number that is not the smallest, the one that was connected first is served alone while it has something: at most one message is taken from the other. (Unless all outputs of the junction are of variation F and closed.) In terms of the configuration as it is written, this holds of connections that end at the same component; of two of the same number the one whose name and place come first in the order of strings is served (m_10 before m_2).", "quantifier": "all configurations whose hops are complete, all runs and intervals of them, whatever files cannot be opened, all channel sizes, all junctions and inputs", "why_tests_cant": "the one test of junctions has inputs of the same number only as the smallest; how often inputs are served depends on the interleaving", "anchors": ["src/junction.rs: initialize_stdin (old_priority), iteration", "src/waiter.rs: add_join", "src/config_manip.rs"]}
{"id": "C105", "title": "With streams that never end, nothing is held up for ever", "statement": "In a pipeline without circles and without regulators under management, in which all connections to one junction have the same number and nothing fails: everything a component has received eventually gets through every connection from it, in order and complete, and so to everything connected further on (other than through programs), and is written to the files, streams and programs at the end of the way; every file or stream is read either to its end or for ever. No bound on what the streams give is assumed. Fair schedules exist: whatever has happened can go on in a fair way, and (without buffers) without any failure or end. The same in terms of the connections as they are written, those that end at the same place having the same number. It is enough if all connections to junctions from the component in question onward have the least number of those to that junction; in terms of the connections as they are written, the least number of those that end at the same place. Some condition on the numbers is needed: with different numbers there is a fair schedule without end, in which nothing fails or ends, and yet a line that was read never arrives and a stream is not read any more.", "quantifier": "all configurations whose hops are complete, all fair schedules, finite or infinite, all channel sizes other than 0", "why_tests_cant": "about runs that never end; tests have files of a few lines", "anchors": ["src/junction.rs: iteration", "src/motion.rs: motion_one", "src/buffer.rs", "src/regulator.rs", "src/waiter.rs: start"]}
{"id": "C106", "title": "Files and streams that never answer hold up only what is on its way to them", "statement": "In a pipeline without circles and without regulators under management, in which nothing fails, let any set of files and streams never answer: one that is read from gives nothing, though it does not end, and one that is written to takes nothing, though it does not fail. Whoever can otherwise go on goes on. Then everything a component has received still gets through every connection from it, in order and complete, and so to everything connected further on (other than through programs), and is written to the files, streams and programs there, provided that nothing reached from that component writes to one of these files and streams, and that connections to junctions from there on have the least number. A file or stream that does answer is read to its end or for ever, on the same condition. The same in terms of the connections as they are written. Such schedules exist: without buffers, whatever has happened without failures and ends can go on so for ever, the given files and streams never answering again. What is on its way to one that takes nothing any more is indeed held up: through regulators and junctions, only so many lines are ever read from what it comes from, with the channel sizes of the code and as long as nothing on the way was found closed.", "quantifier": "all configurations whose hops are complete, all sets of files and streams, all schedules that are fair but for these, finite or infinite, all channel sizes other than 0", "why_tests_cant": "about waiting for ever; a test cannot tell a stream that gives nothing from one that is slow, nor run for ever", "anchors": ["src/motion.rs: motion_one", "src/junction.rs: iteration", "src/buffer.rs", "src/faucet.rs", "src/drain.rs", "src/waiter.rs: start"]}
{"id": "C107", "title": "A stream without end goes through as it is", "statement": "What a component has received is at all times a mixture of beginnings of what was read from the streams that lead to it, one of each and each in order, in any pipeline that can be built. Where a single stream leads to a component, directly or through junctions, buffers and regulators, what that component has received is at all times the beginning of the lines read from the stream, in any pipeline that can be built. In a pipeline without circles and without regulators under management, in which nothing fails, and under the conditions of C106 on numbers and on files and streams that do not answer, also: however much has been read from the stream, at some time the component has received all of it. If the component is a drain that writes to a file, or a program, the bytes written there are at all times the beginning of the bytes of the lines read, and however much has been read, at some time it has all been written, whether the stream ever ends or not.", "quantifier": "all configurations whose hops are complete, all components to which one stream leads, all schedules that are fair but for any set of files and streams, finite or infinite, all points of time, all channel sizes other than 0", "why_tests_cant": "about streams that never end and all points of time on all interleavings; a test sees a finite beginning of one", "anchors": ["src/motion.rs: motion_one", "src/junction.rs: iteration", "src/buffer.rs", "src/faucet.rs", "src/drain.rs", "src/waiter.rs: start"]}
