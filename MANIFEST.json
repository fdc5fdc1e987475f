{"claims": [
 {"property": "C01", "status": "proved", "theorems": ["Verif.C01_messages_are_the_lines", "Verif.C01_lines_characterised", "Verif.C01_chunking_irrelevant"], "note": ""},
 {"property": "C02", "status": "proved", "theorems": ["Verif.C02_no_byte_lost_or_invented"], "note": ""},
 {"property": "C03", "status": "proved", "theorems": ["Verif.C03_finished_iff_nothing_left", "Verif.C03_error_after_complete_lines", "Verif.C03_complete_lines_characterised"], "note": ""},
 {"property": "C04", "status": "partial", "theorems": ["Verif.C04_chunking_irrelevant_partial", "Verif.C04_refuted_for_three_byte_separators", "Verif.C04_refuted_for_overlapping_separators"], "note": "The claim for all separator lists is false of the code; the refutations are proved, and the positive theorem covers prefix-free lists of separators of one or two bytes (the program itself only ever uses LF and CR LF)."},
 {"property": "C05", "status": "proved", "theorems": ["Verif.C05_fan_out"], "note": ""},
 {"property": "C06", "status": "proved", "theorems": ["Verif.C06_pipe_variations", "Verif.C06_no_message"], "note": ""},
 {"property": "C07", "status": "proved", "theorems": ["Verif.C07_relay_prefix", "Verif.C07_relay_complete", "Verif.C07_relay_failed"], "note": ""},
 {"property": "C08", "status": "proved", "theorems": ["Verif.C08_notifications_prefix", "Verif.C08_notifications_complete"], "note": ""},
 {"property": "C09", "status": "proved", "theorems": ["Verif.C09_spies"], "note": ""},
 {"property": "C10", "status": "proved", "theorems": ["Verif.C10_lower_number_first", "Verif.C10_once_per_pass", "Verif.C10_served", "Verif.C12_smallest_priority_together_partial"], "note": "All inputs, priorities, responses and numbers of passes. An input given up because every output is gone with variation F counts as ended, as in C14."},
 {"property": "C100", "status": "proved", "theorems": ["Verif.C100_stuck", "Verif.C100_exists"], "note": "The situation is Waiter.Burst (Spec/Burst); C100_stuck shows that it stays whatever happens and that the program does not end. C100_exists is a run of a configured pipeline, with the capacities of the code, that gets there after a failed write of a drain."},
 {"property": "C101", "status": "proved", "theorems": ["Verif.C101_same", "Verif.C101_equivalence", "Verif.C101_itself", "Verif.C101_blame", "Verif.C101_accessors", "Verif.C101_ports"], "note": "The model leaves out the messages that could not be sent to a monitor: for each of the two kinds of error it is always the same one. Neither pull_journey nor the comparison nor the spelling of ports is used by the program outside its tests."},
 {"property": "C102", "status": "proved", "theorems": ["Verif.C102_read", "Verif.C102_lines", "Verif.C102_unlimited", "Verif.C102_written"], "note": "Test support and code that nothing calls, modelled for completeness. A portion size of zero makes the text look empty."},
 {"property": "C103", "status": "proved", "theorems": ["Verif.C103_order", "Verif.C103_served", "Verif.C103_written"], "note": "The same for the task of a junction by itself is C10; here the channels are those of the assembled program, and empty means that there was nothing in the channel. That smaller numbers come first is contrary to the README (C11)."},
 {"property": "C104", "status": "proved", "theorems": ["Verif.C104_starved", "Verif.C104_shared", "Verif.C104_written_starved", "Verif.C104_written_shared"], "note": "What C12 (refuted of the code in general) means for the running program, in both directions."},
 {"property": "C105", "status": "proved", "theorems": ["Verif.C105_hop", "Verif.C105_reaches", "Verif.C105_reads", "Verif.fair_exists", "Verif.goes_on_for_ever", "Verif.C105_written", "Verif.C105_written_reads", "Verif.C105_written_lasts", "Verif.C105_uneven_refuted", "Verif.C105_favoured_hop", "Verif.C105_favoured_reaches", "Verif.C105_favoured_reads", "Verif.C105_written_favoured", "Verif.C105_written_favoured_reads", "Verif.C105_drained", "Verif.C105_written_drained"], "note": "Liveness without a bound on the input (C67 needs one). The bounded channels for the notices of what a buffer does (buffer.rs:84-85) are included: the count takes what is in them. C105_uneven_refuted shows that without the condition on the numbers it is false of the code."},
 {"property": "C106", "status": "proved", "theorems": ["Verif.C106_hop", "Verif.C106_reaches", "Verif.C106_drained", "Verif.C106_reads", "Verif.C106_written_reaches", "Verif.C106_written_drained", "Verif.C106_written_reads", "Verif.C106_written_lasts", "Verif.C106_holds"], "note": "C105_favoured_hop and its companions are the case in which everything answers. C106_holds follows from C83_ahead."},
 {"property": "C107", "status": "proved", "theorems": ["Verif.C107_mixes", "Verif.C107_begins", "Verif.C107_arrives", "Verif.C107_pours"], "note": "C107_mixes and C107_begins hold of all runs, with failures and managers too. The streams are not exit ports. The example in Props/PipedExample is a run without end that meets the hypotheses of C107_pours."},
 {"property": "C11", "status": "partial", "theorems": ["Verif.C11_refuted_higher_number_last"], "note": "False of the code; the theorem is the refutation: for every two inputs the larger number waits for the smaller. README lines 710-720 say the opposite."},
 {"property": "C12", "status": "partial", "theorems": ["Verif.C12_smallest_priority_together_partial", "Verif.C12_refuted_earlier_starves_later", "Verif.C12_refuted_starvation"], "note": "True for the smallest priority (partial theorem), false for all larger ones: refuted in general and by runs of every length."},
 {"property": "C13", "status": "proved", "theorems": ["Verif.C13_common_order", "Verif.C13_complete", "Verif.C13_each_output"], "note": "At every moment of every run; equality for complete failure-free runs."},
 {"property": "C14", "status": "proved", "theorems": ["Verif.C14_dropped_iff_ended", "Verif.C14_ends"], "note": ""},
 {"property": "C15", "status": "partial", "theorems": ["Verif.C15_refuted_outputs_left_open"], "note": "False of the code; the theorem shows that no failing junction closes any output (all inputs are closed)."},
 {"property": "C16", "status": "proved", "theorems": ["Verif.C16_paused", "Verif.C16_paused_handle"], "note": "For every execution of a regulator (or faucet) with any other tasks over async-channel semantics with a control channel of capacity 1, only the regulator reading it. `_handle` derives pause/resume parity from the control handle of the code."},
 {"property": "C17", "status": "proved", "theorems": ["Verif.C17_prefix", "Verif.C17_complete", "Verif.C17_closes"], "note": "Covers regulator.rs:102-156 and faucet.rs:109-163 (same text)."},
 {"property": "C18", "status": "proved", "theorems": ["Verif.C18_calls", "Verif.C18_alternate", "Verif.C18_idempotent", "Verif.C18_after_end"], "note": "After the end: for a regulator that ended without failing. The failing case is C59."},
 {"property": "C19", "status": "proved", "theorems": ["Verif.C19_requests", "Verif.C19_sleep", "Verif.C19_looked"], "note": "For all watermarks, any number of distinct monitored buffers (C47: none is monitored twice) and every history of reports; the occupancy is read off the trace."},
 {"property": "C20", "status": "proved", "theorems": ["Verif.C20_balanced", "Verif.C20_stops", "Verif.C20_released"], "note": "C20_released is about regulator and manager running together."},
 {"property": "C21", "status": "proved", "theorems": ["Verif.C21_one_per_look", "Verif.C21_hysteresis", "Verif.C21_both", "Verif.C21_flaps"], "note": "C21_both and C21_flaps are the part about equal or reversed watermarks."},
 {"property": "C22", "status": "partial", "theorems": ["Verif.C22_refuted", "Verif.C22_unmonitored_partial"], "note": "False of the code; refuted: an execution, polled as in the code, of a buffer, its manager and an idle regulator after which the buffer never accepts again. What holds: the count of an unmonitored buffer never waits for anybody."},
 {"property": "C23", "status": "proved", "theorems": ["Verif.C23_buffer_prefix", "Verif.C23_buffer_holds", "Verif.C23_buffer_complete"], "note": "Stated over all executions in which the two halves of a buffer run with arbitrary surroundings."},
 {"property": "C24", "status": "proved", "theorems": ["Verif.C24_never_underflows", "Verif.C24_reports", "Verif.C24_settled", "Verif.C24_exact", "Verif.C24_current", "Verif.C24_changed", "Verif.C24_ends", "Verif.C24_then_ends", "Verif.C24_final"], "note": "Under the poll order of join (Model/Poll.lean), any capacities with the outgoing notification channel not larger than the incoming one, any environment. C24_current: every change is reported; C24_changed: only changes are; C24_ends/then_ends/final: when the count ends and with what."},
 {"property": "C25", "status": "partial", "theorems": ["Verif.C25_refuted", "Verif.C25_partial"], "note": "False of the code; refuted: with independent tasks the count subtracts from zero. Holds for the interleavings of join (C24)."},
 {"property": "C26", "status": "proved", "theorems": ["Verif.C26_back_off", "Verif.C26_junction"], "note": ""},
 {"property": "C27", "status": "proved", "theorems": ["Verif.C27_connection_strings", "Verif.C27_refused", "Verif.C27_unambiguous"], "note": "Both directions, for every string and every description of the documented syntax."},
 {"property": "C28", "status": "proved", "theorems": ["Verif.C28_well_shaped", "Verif.C28_variations"], "note": ""},
 {"property": "C29", "status": "proved", "theorems": ["Verif.C29_priorities"], "note": "isize of a 64 bit machine."},
 {"property": "C30", "status": "proved", "theorems": ["Verif.C30_convert", "Verif.C30_either", "Verif.C30_idempotent"], "note": ""},
 {"property": "C31", "status": "proved", "theorems": ["Verif.C31_invalid", "Verif.C31_valid", "Verif.C31_clean", "Verif.C31_config"], "note": "The report is a set; theorems state exactly what is in it."},
 {"property": "C32", "status": "proved", "theorems": ["Verif.C32_sets", "Verif.C32_only", "Verif.C32_adds", "Verif.C32_last_wins", "Verif.C32_idempotent", "Verif.C32_commute", "Verif.C32_sorted"], "note": "Commutation is up to the order of hash maps."},
 {"property": "C33", "status": "proved", "theorems": ["Verif.C33_watermarks"], "note": ""},
 {"property": "C34", "status": "proved", "theorems": ["Verif.C34_hops", "Verif.C34_distinct", "Verif.C34_count"], "note": "manipulateLight models connection_manipulation_light; full processing starts with the same steps. The i-th hop of set b gets the key b_i, so keys never collide. Note that a BTreeMap iterates b_10 before b_2."},
 {"property": "C35", "status": "proved", "theorems": ["Verif.C35_aborts"], "note": "For both connection_manipulation and connection_manipulation_light, for every hash iteration order."},
 {"property": "C36", "status": "partial", "theorems": ["Verif.C36_refuted", "Verif.C36_partial"], "note": "False of the code; refuted: for every configuration with an invalid string, processing panics before lint runs (bin/pa2.rs:521-535). Drawing, which runs lint first, reports every invalid string (C36_partial)."},
 {"property": "C37", "status": "proved", "theorems": ["Verif.C37_ways"], "note": "\"Priority on exactly one hop\": the hop with the original key keeps variation and priority; inserted hops have variation F and repeat the priority of the first hop (see C41)."},
 {"property": "C38", "status": "proved", "theorems": ["Verif.C38_single", "Verif.C38_minimal"], "note": "Stronger: holds for everything but the inserted junctions, user junctions included; nothing is inserted if nothing is used twice."},
 {"property": "C39", "status": "proved", "theorems": ["Verif.C39_fresh", "Verif.C39_distinct"], "note": ""},
 {"property": "C40", "status": "proved", "theorems": ["Verif.C40_spies", "Verif.C40_unconfigured"], "note": "\"New\" means not configured before; C40_unconfigured shows a drain that is used without being configured being captured."},
 {"property": "C41", "status": "partial", "theorems": ["Verif.C41_refuted", "Verif.C41_others_partial"], "note": "False of the code; refuted: for every configuration in which the first hop (in the order of the generated names) into a non-junction has a non-zero priority, wiring is refused although a junction is put in. Proved instead: with priority 0 first, and everything else legal, it works whatever the other priorities."},
 {"property": "C42", "status": "proved", "theorems": ["Verif.C42_wired", "Verif.C42_components", "Verif.C42_refused", "Verif.C42_channels"], "note": "For all hop configurations: success iff each hop can be made after those before it; then exactly the mentioned components with exactly the channel ends of their hops; otherwise a truthful error about the first hop that cannot be made; never a panic."},
 {"property": "C43", "status": "proved", "theorems": ["Verif.C43_exactly", "Verif.C43_clean"], "note": "C43_exactly: processing and wiring succeed exactly for legal configurations, for every hash order, given well formed connection sets and configured drains. C43_clean: lint-clean configurations with commands that use the components as they allow."},
 {"property": "C44", "status": "proved", "theorems": ["Verif.C44_lookup", "Verif.C44_distinct"], "note": "For all configurations that wire up."},
 {"property": "C45", "status": "proved", "theorems": ["Verif.C45_success", "Verif.C45_reported", "Verif.C45_earliest", "Verif.C45_abort", "Verif.C45_exists", "Verif.C45_everyone"], "note": "For every combination of component outcomes: success iff all succeeded, with the sum; otherwise a permutation of all errors, sorted by time when all carry one; an abort of the sort only where the comparison is inconsistent."},
 {"property": "C46", "status": "partial", "theorems": ["Verif.C46_refuted", "Verif.C46_exactly", "Verif.C46_timed_partial", "Verif.C46_reached_refuted", "Verif.C46_runtime_partial"], "note": "False of the code; refuted, also for errors that the components of a built pipeline do end with (C46_reached_refuted: a drain that cannot make its file behind a buffer). Proved exactly for which lists of errors the comparison is consistent, and that in a built runtime it is whenever no buffer failed."},
 {"property": "C47", "status": "proved", "theorems": ["Verif.C47_exactly"], "note": "For every runtime built from a processed configuration and every order of the settings: preparing the managers aborts iff a buffer is listed twice by the regulators that are active; otherwise exactly the active ones (all their buffers exist) get a manager."},
 {"property": "C48", "status": "partial", "theorems": ["Verif.C48_identifiers", "Verif.C48_nodes", "Verif.C48_cluster", "Verif.C48_edges", "Verif.C48_hops", "Verif.C48_set", "Verif.C48_merged", "Verif.C48_refuted", "Verif.C48_pipes_refuted", "Verif.C48_accepted"], "note": "False of the code; refuted: the graph is declared strict, so of two hops between the same components only the last one's port is shown (C48_refuted, an accepted configuration), and neither pipe variation nor priority is drawn (C48_pipes_refuted, every configuration). Proved for every configuration: node identifiers are injective, exactly the mentioned components have nodes, each in exactly one cluster (named after a set that mentions it) or outside, and there is one edge statement per hop. The legend, and which texts Graphviz can read, are in C76."},
 {"property": "C49", "status": "proved", "theorems": ["Verif.C49_connection", "Verif.C49_config", "Verif.C49_defaults", "Verif.C49_known_fields", "Verif.C49_type_names"], "note": "At the level of serde's data model; the JSON and YAML texts are not modelled."},
 {"property": "C50", "status": "proved", "theorems": ["Verif.C50_accepted", "Verif.C50_last_wins"], "note": ""},
 {"property": "C51", "status": "proved", "theorems": ["Verif.C51_once", "Verif.C51_after", "Verif.C51_prefix", "Verif.C51_apart", "Verif.C51_own"], "note": "For every interleaving of the three relays and every exit status. C51_once, C51_after and C51_prefix require the exit port to have a channel of its own. C51_apart: in a runtime that was built it has, unless the exit port is connected to the input of the same program. C51_own: in that case, as long as nothing fails, the status is never written and the run never ends. C65_exit is the version for runtimes without the assumption."},
 {"property": "C52", "status": "partial", "theorems": ["Verif.C52_refuted", "Verif.C52_always", "Verif.C52_taken_partial"], "note": "False of the code; refuted. Proved: a refused exit status always fails the run whatever the variation; one that is taken leaves the relays' result."},
 {"property": "C53", "status": "proved", "theorems": ["Verif.C53_prefix", "Verif.C53_conserved", "Verif.C53_complete"], "note": "For a line of components inside any wired network of relays, regulators, faucets and junctions, any capacities and schedules. C53_conserved and C53_complete assume no failure from outside the channels between components (a failing read, write, notification or spy). Ending with everything delivered is C54."},
 {"property": "C54", "status": "proved", "theorems": ["Verif.C54_progress", "Verif.C54_stops", "Verif.C54_delivers", "Verif.C54_finite"], "note": "For any finite network of relays and regulators without circles that is not connected to its surroundings by channels; pipelines of every length are instances (Pipe.acyclic, Pipe.selfContained, Pipe.noJunction). Reading and writing handles is assumed to return."},
 {"property": "C55", "status": "proved", "theorems": ["Verif.C55_channel", "Verif.C55_conserved", "Verif.C55_branch", "Verif.C55_failures", "Verif.C55_no_failures", "Verif.C55_complete", "Verif.C55_branch_complete", "Verif.C55_delivered"], "note": "Any network, also cyclic; components as the program makes them (Node.Ok), each channel with one writer and one reader (Wired), surroundings not touching channels between components. The 'in the end' part assumes no failure from outside; C55_failures shows a first failure is always one."},
 {"property": "C56", "status": "proved", "theorems": ["Verif.C56_reachable", "Verif.C56_frozen", "Verif.C56_circle", "Verif.C56_settled", "Verif.C56_buffer", "Verif.C56_goes_on"], "note": "For every capacity and loop length a loop of bounded channels whose returning input has no better priority than the new input can be filled without failure until no component can move (reachable); such a circle never moves again; whenever a finite network has come to rest without having processed everything there is a circle of full channels; a network whose bounded channels form no circle always has a real step until everything is processed."},
 {"property": "C57", "status": "partial", "theorems": ["Verif.C57_refuted", "Verif.C57_source", "Verif.C57_destination_partial", "Verif.reading_destination", "Verif.C57_text", "Verif.C57_runtime"], "note": "False of the code; refuted: errors of reading and of opening carry a destination that is never named. The source is right for every error and table; the destination is right for all other errors; C57_runtime says for every runtime that can be built what is named, whatever component fails and however."},
 {"property": "C58", "status": "partial", "theorems": ["Verif.C58_refuted"], "note": "False of the code; refuted: processing always prints the set of configured drains (config_manip.rs:654). What is printed is modelled as the list of names."},
 {"property": "C59", "status": "partial", "theorems": ["Verif.C59_refuted", "Verif.C18_after_end"], "note": "False of the code after a failing end; refuted. Proved for normal ends (C18_after_end)."},
 {"property": "C60", "status": "proved", "theorems": ["Verif.C60_readable", "Verif.C60_refused"], "note": "For arbitrary readers of JSON and YAML."},
 {"property": "C61", "status": "partial", "theorems": ["Verif.C61_refuted", "Verif.C61_timed_partial", "Verif.C61_lost"], "note": "False of the code; refuted: the failures of buffers carry neither time nor pipe. For all other components of every built runtime both are there."},
 {"property": "C62", "status": "partial", "theorems": ["Verif.C62_refuted", "Verif.C62_junction_refuted", "Verif.C62_drain_partial", "Verif.C62_ends_partial", "Verif.C62_reported_partial"], "note": "False of the code; refuted for every pipeline: if the file of a faucet cannot be opened (or nothing is configured for the faucet), what reads from it, unless it is a junction, never does anything, and the program never ends; a junction cannot end unless its outputs fail. What is true: a drain that cannot create its file lets go of its input; if only drains fail to open their files, everything ends (without managers and circles, and unless a junction fails, which C15 shows to be necessary); and when the program returns, everything that could not be opened is reported."},
 {"property": "C63", "status": "proved", "theorems": ["Verif.C63_progress", "Verif.C63_stops", "Verif.C63_finite"], "note": "C63_progress also holds for networks connected to surroundings that keep supplying and taking (Unhindered); junctions must not have met a failure they cannot get over (see C15; writes refused by outputs with C or F they do get over)."},
 {"property": "C64", "status": "proved", "theorems": ["Verif.C64_wired", "Verif.C64_edges", "Verif.C64_others"], "note": "Complete excludes half-connected regulators, buffers and junctions. Example: Props/RuntimeExample.lean."},
 {"property": "C65", "status": "proved", "theorems": ["Verif.C65_hop", "Verif.C65_buffer", "Verif.C65_complete", "Verif.C65_exit", "Verif.C65_exit_complete", "Verif.C65_streams", "Verif.C65_written"], "note": "The final statements assume that no file or stream failed and no notification was refused. Example: Props/RuntimeExample.lean, a run of a regulator with manager, buffer, launch and two drains to its end."},
 {"property": "C66", "status": "proved", "theorems": ["Verif.C66_progress", "Verif.C66_stops", "Verif.C66_components"], "note": "No managers (with them it is false, C22_refuted). Programs and files are assumed to answer each read and write some time; junctions to have met no failure they cannot get over (C15_refuted)."},
 {"property": "C67", "status": "proved", "theorems": ["Verif.C67_ends", "Verif.C67_delivers"], "note": "For runtimes without monitors. A schedule is an infinite sequence of events or pauses, fair if whoever can make a step from some time on for ever makes one. Limited: a bound on the lines each file or stream delivers and on how often a program's exit status is asked for. Junctions are assumed to meet no failure (C67_delivers derives that from no file, stream or notification failing)."},
 {"property": "C68", "status": "partial", "theorems": ["Verif.C68_refuted", "Verif.C68_refuted_aborts", "Verif.C68_records_partial", "Verif.C68_connection_partial"], "note": "False of the code; refuted: since the three kinds of connection are tried one after the other, a misspelt output port, variation or priority turns something in the middle into an end or a beginning, and processing then aborts. Proved for all other records; exact characterisation for connections."},
 {"property": "C69", "status": "partial", "theorems": ["Verif.C69_refuted", "Verif.C69_standstill_partial", "Verif.C69_ends_partial", "Verif.C69_delivers_partial"], "note": "False of the code; refuted: a pipeline without circles, its regulator upstream of the only buffer controlling it, reaches a state (polled as in the code, capacities of the code, no failures) after which it never ends. Partial: under every fair schedule with limited input, ending programs and no failures everything ends, or from some time on a manager waits for ever for room for a request in the control channel of its regulator; with unlimited control channels everything ends and is delivered."},
 {"property": "C70", "status": "proved", "theorems": ["Verif.C70_no_underflow", "Verif.C70_accurate", "Verif.C70_told", "Verif.C70_justified"], "note": ""},
 {"property": "C71", "status": "proved", "theorems": ["Verif.C71_starts", "Verif.C71_conveys", "Verif.C71_delivers", "Verif.C71_works"], "note": "From the configuration as written, through pairing, inserted junctions, exit drains and wiring, to every schedule of what runs. C71_works is for configurations without circles and without managers (with managers see C69)."},
 {"property": "C72", "status": "proved", "theorems": ["Verif.C72_asked", "Verif.C72_refused", "Verif.C72_understood", "Verif.C72_unambiguous", "Verif.C72_declared_refuted", "Verif.C72_extension_refuted", "Verif.C72_id_refuted"], "note": "The last three show what the declarations and the code around them suggest but what is not so. Clap's own reading of the arguments is not modelled: Possible says what it hands over for these declarations."},
 {"property": "C73", "status": "proved", "theorems": ["Verif.C73_edit", "Verif.C73_chain", "Verif.C73_settled"], "note": "For every library whose JSON writer is read back by both readers (Library.Faithful; shown to be satisfiable by plainLibrary in Lemmas/Plain) and every order of writing hash maps. The text formats themselves are not modelled."},
 {"property": "C74", "status": "proved", "theorems": ["Verif.C74_lint", "Verif.C74_manipulate", "Verif.C74_parts", "Verif.C74_graph", "Verif.C74_process", "Verif.C74_unreadable", "Verif.C74_join", "Verif.C74_lacking", "Verif.C74_ends"], "note": "Files are found in full or not at all; what a pipeline does is a parameter (start), see C71 and C69 for pipelines themselves."},
 {"property": "C75", "status": "proved", "theorems": ["Verif.C75_component", "Verif.C75_outcome", "Verif.C75_clean", "Verif.C75_calm", "Verif.C75_delivered", "Verif.C75_returns", "Verif.C75_zero", "Verif.C75_refuted"], "note": "C75_refuted: the last sentence, with a run of one faucet and one program. Outcomes are tied to what happened (Model/Results.lean); aborts by the sort of the errors (C46) are outcomes none. C75_zero needs that the configuration is sound and that start does what Model/Results.lean says when it ends."},
 {"property": "C76", "status": "partial", "theorems": ["Verif.C76_refuted", "Verif.C76_readable", "Verif.C76_strings", "Verif.C76_legend_readable", "Verif.C76_explained"], "note": "False of the code: names are written without quotes (C76_refuted: a faucet called node). The exact condition and everything else stated are proved. Assumes that graphviz_rust prints plain identifiers as they are."},
 {"property": "C77", "status": "partial", "theorems": ["Verif.C77_consume", "Verif.C77_forgiving", "Verif.C77_stops", "Verif.C77_gives_up", "Verif.C77_junction", "Verif.C77_closes", "Verif.C77_terminate_partial", "Verif.C77_terminate_refuted"], "note": "False of the code for T; refuted (Pipeawesome does not terminate, only the component does). C and F are proved as described; a junction all of whose outputs are F takes at most one message more from each input once all its readers have ended (C77_junction)."},
 {"property": "C78", "status": "proved", "theorems": ["Verif.C78_taken", "Verif.C78_taken_all", "Verif.C78_copies", "Verif.C78_copied", "Verif.C78_merged"], "note": "Links the reads of runs to motion_read_buffer on chunks (C01) and goes through C71 from the configuration as written. Writing is write_all: a write that fails half way is not looked into. Exit ports are not streams and not included as sources (C65, C71 say what they send)."},
 {"property": "C79", "status": "proved", "theorems": ["Verif.C79_kind", "Verif.C79_begins", "Verif.C79_quoted", "Verif.C79_component", "Verif.C79_line", "Verif.C79_refuted", "Verif.C79_lint", "Verif.C79_complaint", "Verif.C79_lint_refuted"], "note": "The texts of the operating system and of the channel library are parameters; quoting by the standard library is modelled (debugText, C79_quoted), except for which characters are printable. That names must not contain the separators, and that pausing and resuming are described alike, is shown to be necessary."},
 {"property": "C80", "status": "partial", "theorems": ["Verif.C80_refuted", "Verif.C80_terminate_refuted", "Verif.C80_safe_partial"], "note": "False of the code; refuted for every pipeline: after a failure of a junction nothing that reads from it ends unless it fails itself, so the program never ends and the failure is never reported. So T out of a junction does the opposite of what the README says. What is true: nothing fatal ever happens to a junction whose outputs are all C or F; and a failed junction closes its inputs (C15)."},
 {"property": "C81", "status": "proved", "theorems": ["Verif.C81_circle", "Verif.C81_unending", "Verif.C81_ends"], "note": "The counterpart of C67, which says that everything ends if there are no loops except through programs. That a program ends before its input is a condition on the run (Waiter.Patient): programs are not modelled."},
 {"property": "C82", "status": "proved", "theorems": ["Verif.C82_unjammed", "Verif.C82_plain", "Verif.C82_components", "Verif.C82_refuted"], "note": "C82_refuted is the second half: the deadlock the README warns of, in a loop through one program. A program that takes nothing in while it waits for what it has printed to be taken is a condition on the state (Waiter.Unrelieved), since programs are not modelled; drains are assumed to take what they are given."},
 {"property": "C83", "status": "proved", "theorems": ["Verif.C83_bounded", "Verif.C83_ahead", "Verif.C83_since", "Verif.C83_reached"], "note": "C83_reached shows that the bound is attained. Junctions and regulators lie on the way; buffers have no bound, programs are not modelled."},
 {"property": "C84", "status": "proved", "theorems": ["Verif.C84_paused", "Verif.C84_bounded", "Verif.C84_unbounded", "Verif.C84_exceeded"], "note": "C84_bounded: ways through regulators; the counter may run behind by what its channels hold, which is where 29 comes from. C84_exceeded: a run in which the buffer holds the high watermark and 20 more. C84_unbounded: no bound without a manager."},
 {"property": "C85", "status": "proved", "theorems": ["Verif.C85_progress", "Verif.C85_managed", "Verif.C85_stops", "Verif.C85_components"], "note": "Programs and pipes are modelled in Model/World.lean as surroundings of the code: no signals, unconnected streams are /dev/null. Programs wait for nothing but their pipes. C85_components: absence of circles among components suffices."},
 {"property": "C86", "status": "proved", "theorems": ["Verif.C86_reads", "Verif.C86_reads_one", "Verif.C86_reads_all", "Verif.C86_prints", "Verif.C86_pipeline", "Verif.C86_follows", "Verif.C86_quiet", "Verif.C86_unix"], "note": "Programs and pipes as in C85. A program computes a function (Program.Filters) if, whatever happens to it with pipes doing as pipes do, it reads to the end and has printed that function of its input when it ends; the examples show this for programs that print as they go and for programs that print after having read everything, for every (monotone) function. Files are assumed to supply their contents (Supplies)."},
 {"property": "C87", "status": "proved", "theorems": ["Verif.C87_ends", "Verif.C87_managed", "Verif.C87_computes"], "note": "Programs and pipes as in C85 and C86. Fairness (FairWorld) is weak fairness: whoever can go on from some time on for ever does so at some time. Program.Finite asks that a program which lives for ever reads without bound; the examples show it for filters and for copying programs."},
 {"property": "C88", "status": "proved", "theorems": ["Verif.C88_rest", "Verif.C88_loops", "Verif.C88_plain", "Verif.C88_written", "Verif.C88_refuted"], "note": "C88_refuted is the second half: channels as in the code, pipes of two bytes, and a program that computes the identity; no rule applies at all. C88_plain is the case without managed regulators and with the channels of the code. C88_written is in terms of the configuration as it is written."},
 {"property": "C89", "status": "proved", "theorems": ["Verif.C89_pipes", "Verif.C89_exit", "Verif.C89_exit_complete"], "note": ""},
 {"property": "C90", "status": "proved", "theorems": ["Verif.C90_solved", "Verif.C90_brought", "Verif.C90_unique", "Verif.C90_determined", "Verif.C90_computes"], "note": ""},
 {"property": "C91", "status": "proved", "theorems": ["Verif.C91_passed", "Verif.C91_taken", "Verif.C91_read", "Verif.C91_written"], "note": ""},
 {"property": "C92", "status": "proved", "theorems": ["Verif.C92_bounded", "Verif.C92_balanced", "Verif.C92_least", "Verif.C92_determined"], "note": ""},
 {"property": "C93", "status": "proved", "theorems": ["Verif.C93_rests", "Verif.C93_given", "Verif.C93_settles", "Verif.C93_computes", "Verif.C93_iff", "Verif.C93_final", "Verif.C93_stays", "Verif.C93_fair"], "note": ""},
 {"property": "C94", "status": "proved", "theorems": ["Verif.C94_cause", "Verif.C94_once"], "note": "With C75_outcome, which says that the components named are exactly those that broke, each of these is named exactly once. That the destination is unknown in errors of reading is the disagreement of C57."},
 {"property": "C95", "status": "proved", "theorems": ["Verif.C95_ends", "Verif.C95_computes", "Verif.C95_unlimited", "Verif.C95_rests"], "note": "C95_ends is for runtimes, the others are for configurations. The exception does occur with the capacities of the code: see C69. The drains that are told about are those with one stream before them (C95_computes) or any (C95_rests, up to the order of lines)."},
 {"property": "C96", "status": "proved", "theorems": ["Verif.C96_ends", "Verif.C96_computes", "Verif.C96_real"], "note": "C96_ends is for runtimes, also with exit ports, and with regulators whose output is refused as long as they get over it (otherwise see C99); the others are for configurations without exit ports. C96_real is with the capacities of the code. Without the other buffer the claim is false: see C69."},
 {"property": "C97", "status": "proved", "theorems": ["Verif.C97_wired", "Verif.C97_written", "Verif.C97_piped"], "note": "C97_written and C97_piped are in terms of the configuration as it is written, C97_wired in terms of the hops that are wired up. What Command of the standard library does with directory and environment is as it documents (Cmd.var, Cmd.directory)."},
 {"property": "C98", "status": "proved", "theorems": ["Verif.C98_ends", "Verif.C98_returns", "Verif.C98_says", "Verif.C98_world"], "note": "With variation T out of a junction it is false (C80_refuted); with a faucet that cannot open its file it is false (C62_refuted). C98_ends holds for any capacities greater than zero; C98_returns and C98_says for those of the code, as they need that no count of a buffer subtracts from zero (C70). C98_world is C98_ends with the programs and pipes in the model (files that can be opened)."},
 {"property": "C99", "status": "proved", "theorems": ["Verif.C99_untaken", "Verif.C99_stuck", "Verif.C99_exists"], "note": "The whole-runtime consequence of what C59_refuted shows for a regulator and a caller. C99_exists is a run of a configured pipeline in which it happens. That the manager does make a request as soon as the occupancy reaches the high watermark is C19."}
]}
